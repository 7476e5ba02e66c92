import Verif.Delivery.Exact

/-
Property theorems C21–C24, C58 and C59. `run (Svc.fresh kind parallel) es` is a
service after an arbitrary sequence `es` of events: requests from any nodes and sessions
with any delivery instructions, tasks that end or are cancelled at any moment, session
cleanups, nodes that lose their target, and the flush loop working off its lists.
-/
namespace Verif.Delivery

set_option linter.unusedSimpArgs false

/-! ### C21: at most one active request -/

theorem pairwise_of_exact {v : Svc} (h : Exact none v) :
    v.tasks.Pairwise fun a b => ¬ Conflict v.delivery.parallel a.order b.order := by
  have key : ∀ k, (tasksIn v k).length ≤ 1 := by
    intro k
    have := h k
    simp only [reduceCtorEq, if_false] at this
    unfold LaneOK at this
    split at this
    · simp [this.1]
    · rcases this with ⟨t, hT, _⟩ | ⟨hT, _⟩ | ⟨hT, _⟩ <;> simp [hT]
  unfold tasksIn at key
  generalize v.delivery.parallel = par at key
  revert key
  generalize v.tasks = ts
  intro key
  induction ts with
  | nil => exact .nil
  | cons a ts ih =>
    refine .cons ?_ (ih fun k => ?_)
    · intro b hb hc
      have hk : ∃ k, queueOf par a.order = some k ∧ queueOf par b.order = some k := by
        unfold queueOf
        rcases hc with rfl | ⟨i, j, hi, hj, hij⟩
        · exact ⟨none, by simp⟩
        · cases par
          · exact ⟨none, by simp⟩
          · exact ⟨some i.label, by simp [hi], by simp [hj, hij]⟩
      obtain ⟨k, h1, h2⟩ := hk
      have := key k
      rw [List.filter_cons] at this
      simp only [h1, decide_true, if_true, List.length_cons] at this
      have hmem : b ∈ ts.filter fun t => decide (queueOf par t.order = some k) :=
        List.mem_filter.mpr ⟨hb, by simp [h2]⟩
      have := List.length_pos_of_mem hmem
      omega
    · have := key k
      rw [List.filter_cons] at this
      split at this
      · simp only [List.length_cons] at this; omega
      · exact this

theorem run_parallel {kind : Kind} {par : Bool} {es : List Ev} {v : Svc}
    (hr : run (Svc.fresh kind par) es = some v) : Inv none v ∧ v.delivery.parallel = par := by
  obtain ⟨v', h1, h2, h3⟩ := run_inv es (fresh_inv kind par)
  rw [hr] at h1
  cases h1
  exact ⟨h2, h3⟩

theorem run_kind (es : List Ev) : ∀ (w w' : Svc), run w es = some w' → w'.kind = w.kind := by
  induction es with
  | nil => intro w w' h; cases h; rfl
  | cons e es ih =>
    intro w w' h
    simp only [run] at h
    split at h
    · cases h
    · rename_i w1 h1
      rw [ih w1 w' h, step_kind h1]

/-- **C21** for asynchronous and continuous services, under a condition. If pre-empting requests arrive
only when the release of every finished task has been processed (and no task was cleaned
up twice), then at every moment no two active requests conflict: a serial service has at
most one active request, a parallel one at most one per delivery label. This includes
tasks that are stopping or being cleaned up but have not ended. What is missing:
`C21_violated`. -/
theorem C21_one_at_a_time_partial (kind : Kind) (par : Bool) (es : List Ev) (v : Svc)
    (hset : Along Settled (Svc.fresh kind par) es) (hr : run (Svc.fresh kind par) es = some v) :
    v.tasks.Pairwise fun a b => ¬ Conflict par a.order b.order := by
  have h := run_exact es (fresh_inv kind par) (fresh_exact kind par) (.inr hset) hr
  have := pairwise_of_exact h.2
  rwa [(run_parallel hr).2] at this

/-- **C21** for services that are never asked to pre-empt: at every moment of every run no
two active requests conflict. -/
theorem C21_one_at_a_time_without_preemption (kind : Kind) (par : Bool) (es : List Ev) (v : Svc)
    (hn : NoPreempt es) (hr : run (Svc.fresh kind par) es = some v) :
    v.tasks.Pairwise fun a b => ¬ Conflict par a.order b.order := by
  refine C21_one_at_a_time_partial kind par es v ?_ hr
  clear hr
  generalize Svc.fresh kind par = s
  induction es generalizing s with
  | nil => trivial
  | cons e es ih =>
    refine ⟨?_, fun v' _ => ih (fun a b c hm => hn a b c (List.mem_cons_of_mem _ hm)) v'⟩
    cases e <;> try trivial
    rename_i source session instr
    intro hp
    exact absurd hp (hn source session instr (List.mem_cons_self ..))

/-- **C21** for workflows used as services: at every moment of every run, pre-emption
included, no two active requests conflict. -/
theorem C21_one_at_a_time_workflow (par : Bool) (es : List Ev) (v : Svc)
    (hr : run (Svc.fresh .workflow par) es = some v) :
    v.tasks.Pairwise fun a b => ¬ Conflict par a.order b.order := by
  have h := run_exact es (fresh_inv .workflow par) (fresh_exact .workflow par) (.inl rfl) hr
  have := pairwise_of_exact h.2
  rwa [(run_parallel hr).2] at this

/-- A run that meets the condition of `C21_one_at_a_time_partial` and in which a request
pre-empts, is stopped, and waits. -/
def calmRun : List Ev :=
  [.arrive 1 10 (some { label := 0 }), .arrive 2 20 (some { label := 0, preempt := true }),
   .arrive 3 30 none, .cancelDone 0, .unblock]

example : ∃ v, run (Svc.fresh .async false) calmRun = some v ∧
    (v.tasks.map fun t => t.order.id) = [1] ∧ (waiting v).map (·.id) = [2] := ⟨_, rfl, by decide⟩

example : Along Settled (Svc.fresh .async false) calmRun := by
  refine ⟨?_, fun v hv => ⟨?_, fun v' hv' => ⟨?_, fun _ _ => ⟨trivial, fun _ _ => ⟨trivial,
    fun _ _ => trivial⟩⟩⟩⟩⟩
  · rintro ⟨i, hi, hp⟩; cases hi; cases hp
  · intro _
    cases hv
    exact ⟨rfl, by decide⟩
  · rintro ⟨i, hi, _⟩; cases hi

example : NoPreempt [.arrive 1 10 none, .arrive 2 20 none, .finish 0, .unblock] := by
  rintro a b c h ⟨i, hi, hp⟩
  simp only [List.mem_cons, Ev.arrive.injEq, reduceCtorEq, List.not_mem_nil, or_false] at h
  rcases h with ⟨_, _, rfl⟩ | ⟨_, _, rfl⟩ <;> cases hi

/-- **C21** fails for a serial asynchronous service: the first request finishes, and
before the flush has processed its release a pre-empting request arrives. It tries to stop
the finished task, whose entity does not exist any more, and therefore releases the queue
a second time (src/service/async_srv.rs:176-195). The second release starts the third
request while the second one is being carried out. -/
theorem C21_violated : ∃ es v, run (Svc.fresh .async false) es = some v ∧
    ¬ v.tasks.Pairwise fun a b => ¬ Conflict false a.order b.order := by
  refine ⟨[.arrive 1 10 (some { label := 0 }), .finish 0,
    .arrive 2 20 (some { label := 0, preempt := true }), .arrive 3 30 none, .unblock, .unblock],
    _, rfl, ?_⟩
  intro h
  exact absurd h (by
    intro h
    cases h with
    | cons h _ => exact h _ (List.mem_cons_self ..) (.inl rfl))

/-- **C21** fails for a serial continuous service as well: request 0 is removed by the
cleanup of its session, which leaves the queue blocked; two pre-empting requests that arrive
within one flush each release the queue (src/service/continuous.rs:784-795), and the second
release starts request 2 while request 1 is active. -/
theorem C21_continuous_violated : ∃ es v, run (Svc.fresh .continuous false) es = some v ∧
    ¬ v.tasks.Pairwise fun a b => ¬ Conflict false a.order b.order := by
  refine ⟨[.arrive 1 10 (some { label := 0 }), .cleanup 1 10,
    .arrive 2 20 (some { label := 0, preempt := true, ensure := true }),
    .arrive 3 30 (some { label := 0, preempt := true }), .unblock, .unblock], _, rfl, ?_⟩
  intro h
  exact absurd h (by
    intro h
    cases h with
    | cons h _ => exact h _ (List.mem_cons_self ..) (.inl rfl))

/-! ### C22: first come, first served -/

/-- **C22**, nothing panics: the assertions of src/service/delivery.rs:42-50 and 284 hold
in every run, pre-emption, cleanups and double releases included. -/
theorem C22_never_panics (kind : Kind) (par : Bool) (es : List Ev) :
    run (Svc.fresh kind par) es ≠ none := by
  obtain ⟨v, h, _⟩ := run_inv es (fresh_inv kind par)
  rw [h]
  simp

/-- **C22**, order. At every moment, the requests of a queue in the order of their arrival,
apart from those that were discarded by pre-emption, removed by a cleanup or skipped, are
those that have been started, in the order in which they were started, followed by those
that are waiting. So no request overtakes another one, whatever happens. -/
theorem C22_order (kind : Kind) (par : Bool) (es : List Ev) (v : Svc)
    (hr : run (Svc.fresh kind par) es = some v) (k : Option Nat) :
    (accepted v.log).filter (fun o => decide (queueOf par o = some k) && decide (o ∉ lost v.log)) =
      (started v.log).filter (fun o => decide (queueOf par o = some k)) ++
        (v.delivery.lane k).queue := by
  have h := run_parallel hr
  rw [← h.2]
  exact h.1.order k

/-- **C22**, each request is started at most once. -/
theorem C22_started_once (kind : Kind) (par : Bool) (es : List Ev) (v : Svc)
    (hr : run (Svc.fresh kind par) es = some v) : (started v.log).Nodup := by
  have h := (run_parallel hr).1
  rw [List.nodup_iff_count]
  intro o
  have h1 := h.st o
  have h2 := h.count_le o
  omega

theorem serveNext_log (label : Option Nat) : ∀ (fuel : Nat) (v v' : Svc), v.severed = [] →
    lost v.log = [] → v.serveNext label fuel = some v' → v'.severed = [] ∧ lost v'.log = [] := by
  intro fuel
  cases fuel with
  | zero => intro v v' _ _ h; cases h
  | succ fuel =>
    intro v v' hs hl h
    simp only [Svc.serveNext] at h
    split at h
    · cases h
    · cases h; exact ⟨hs, hl⟩
    · split at h
      · rename_i hm
        rw [hs] at hm
        cases hm
      · cases h
        exact ⟨hs, by simp [Svc.start, hl]⟩

/-- Without pre-emption, cleanups and nodes that lose their target nothing is lost. -/
theorem run_lost (es : List Ev) : ∀ (v v' : Svc), NoPreempt es →
    (∀ a b, Ev.cleanup a b ∉ es) → (∀ a, Ev.sever a ∉ es) → v.severed = [] → lost v.log = [] →
    run v es = some v' → lost v'.log = [] := by
  induction es with
  | nil => intro v v' _ _ _ _ hl hr; cases hr; exact hl
  | cons e es ih =>
    intro v v' hn hc hv hs hl hr
    simp only [run] at hr
    split at hr
    · cases hr
    rename_i v1 h1
    have hrel : ∀ t r, lost [r] = [] → v.release t r = some v1 →
        v1.severed = [] ∧ lost v1.log = [] := by
      intro t r hr' h
      unfold Svc.release at h
      split at h
      · cases h; exact ⟨hs, by simp [hl, hr']⟩
      · split at h
        · cases h; exact ⟨hs, by simp [hl, hr']⟩
        · exact serveNext_log _ _ _ _ (by exact hs) (by simp [hl, hr']) h
        · exact serveNext_log _ _ _ _ (by exact hs) (by simp [hl, hr']) h
    have h2 : v1.severed = [] ∧ lost v1.log = [] := by
      cases e with
      | arrive source session instr =>
        have hp := hn source session instr (List.mem_cons_self ..)
        simp only [step, Svc.serve] at h1
        have hcan : ∀ d c s l, insertNewOrder v.delivery
            { id := v.next, source, session, instr } = some (d, .queued c s l) → c = [] ∧ s = none := by
          intro d c s l h
          have hser : ∀ q d c s l, insertSerialOrder q
              { id := v.next, source, session, instr } = some (d, .queued c s l) →
              c = [] ∧ s = none := by
            intro q d c s l h
            unfold insertSerialOrder at h
            split at h
            · split at h <;> cases h
            · split at h
              · cases h; exact ⟨rfl, rfl⟩
              · rename_i inc hi
                split at h
                · rename_i hpre
                  exact absurd ⟨inc, hi, hpre⟩ hp
                · cases h; exact ⟨rfl, rfl⟩
          unfold insertNewOrder at h
          split at h
          · split at h
            · simp only [Option.map_eq_some_iff] at h
              obtain ⟨⟨q, u⟩, h1, h2⟩ := h
              cases h2
              exact hser _ _ _ _ _ h1
            · cases h
          · simp only [Option.map_eq_some_iff] at h
            obtain ⟨⟨q, u⟩, h1, h2⟩ := h
            cases h2
            exact hser _ _ _ _ _ h1
        split at h1
        · cases h1
        · cases h1
          exact ⟨hs, by simp [Svc.start, hl]; rfl⟩
        · rename_i d c s l hins
          obtain ⟨hc0, hs0⟩ := hcan d c s l hins
          subst hc0
          subst hs0
          cases h1
          exact ⟨hs, by simp [hl]⟩
      | finish id =>
        simp only [step] at h1
        split at h1
        · cases h1; exact ⟨hs, hl⟩
        · exact hrel _ _ rfl h1
      | cancelDone id =>
        simp only [step] at h1
        split at h1
        · cases h1; exact ⟨hs, hl⟩
        · refine hrel _ _ ?_ h1
          split <;> rfl
      | unblock =>
        simp only [step] at h1
        split at h1
        · cases h1; exact ⟨hs, hl⟩
        · exact serveNext_log _ _ _ _ (by exact hs) (by exact hl) h1
      | cancelNow =>
        simp only [step] at h1
        split at h1 <;> cases h1 <;> exact ⟨hs, hl⟩
      | cleanup a b => exact absurd (List.mem_cons_self ..) (hc a b)
      | sever a => exact absurd (List.mem_cons_self ..) (hv a)
    exact ih v1 v' (fun a b c hm => hn a b c (List.mem_cons_of_mem _ hm))
      (fun a b hm => hc a b (List.mem_cons_of_mem _ hm))
      (fun a hm => hv a (List.mem_cons_of_mem _ hm)) h2.1 h2.2 hr

/-- **C22**, first come first served. If no request pre-empts, no session is cleaned up and
no node loses its target, then the requests of a queue are started in the order of their
arrival and none is left out: at every moment the arrivals are the started ones followed
by the waiting ones. -/
theorem C22_first_come_first_served (kind : Kind) (par : Bool) (es : List Ev) (v : Svc)
    (hn : NoPreempt es) (hc : ∀ a b, Ev.cleanup a b ∉ es) (hs : ∀ a, Ev.sever a ∉ es)
    (hr : run (Svc.fresh kind par) es = some v) (k : Option Nat) :
    (accepted v.log).filter (fun o => decide (queueOf par o = some k)) =
      (started v.log).filter (fun o => decide (queueOf par o = some k)) ++
        (v.delivery.lane k).queue := by
  have h := C22_order kind par es v hr k
  have hl := run_lost es _ v hn hc hs rfl rfl hr
  rw [hl] at h
  simpa using h

/-- **C22**, a waiting request is never forgotten (asynchronous services and workflows):
whenever requests wait in a queue, there is an active request of that queue, or the release
of the queue is in the list of the flush. -/
theorem C22_waiting_is_served (kind : Kind) (par : Bool) (es : List Ev) (v : Svc)
    (hc : kind ≠ .continuous)
    (hr : run (Svc.fresh kind par) es = some v) (k : Option Nat)
    (hw : (v.delivery.lane k).queue ≠ []) :
    (∃ t ∈ v.tasks, queueOf par t.order = some k) ∨
    (kind = .async ∧ ∃ u ∈ v.unblocks, (par = false ∧ k = none) ∨ (par = true ∧ u = k)) := by
  have h := run_parallel hr
  have hkind : v.kind = kind := run_kind es _ _ hr
  have hd : (v.delivery.lane k).delivering ≠ none := fun hd => hw (h.1.idle k hd)
  rcases h.1.live (by rw [hkind]; exact hc) k (by simp) hd with ht | ⟨u, hu, huk⟩
  · rw [h.2] at ht
    exact .inl ht
  · right
    constructor
    · cases kind
      · rfl
      · rw [h.1.wf hkind] at hu
        cases hu
      · exact absurd rfl hc
    · refine ⟨u, hu, ?_⟩
      rw [h.2] at huk
      unfold lkey at huk
      cases par
      · left; simp at huk; exact ⟨rfl, huk.symm⟩
      · right
        simp only [if_true] at huk
        cases u with
        | none => simp at huk
        | some l => simp at huk; exact ⟨rfl, huk⟩

/-- **C59**, continuous services: whenever requests wait in a queue, there is an active
request of that queue, or the request that blocks it was removed by a cleanup. What is
missing in the second case: `C59_stuck_violated`. -/
theorem C59_waiting_is_served_partial (par : Bool) (es : List Ev) (v : Svc)
    (hr : run (Svc.fresh .continuous par) es = some v) (k : Option Nat)
    (hw : (v.delivery.lane k).queue ≠ []) :
    (∃ t ∈ v.tasks, queueOf par t.order = some k) ∨
    (∃ d, Rec.cleaned d ∈ v.log ∧ queueOf par d = some k) := by
  have h := run_parallel hr
  have hkind : v.kind = .continuous := run_kind es _ _ hr
  cases hd : (v.delivery.lane k).delivering with
  | none => exact absurd (h.1.idle k hd) hw
  | some d =>
    have hk := h.1.dkey k d hd
    rw [h.2] at hk
    rcases h.1.cont hkind k (by simp) d hd with hm | hm
    · obtain ⟨t, ht, rfl⟩ := List.mem_map.mp hm
      exact .inl ⟨t, ht, hk⟩
    · exact .inr ⟨d, hm, hk⟩

/-- **C22**, the next request starts at once (asynchronous services): when the flush
processes the release of a queue, the oldest waiting request is started in that same step,
provided its node still has a target. -/
theorem C22_next_starts (kind : Kind) (par : Bool) (es : List Ev) (v : Svc)
    (hr : run (Svc.fresh kind par) es = some v) (label : Option Nat) (rest : List (Option Nat))
    (hu : v.unblocks = label :: rest) (o : Order) (q : List Order)
    (hq : (v.delivery.lane (if par then label else none)).queue = o :: q)
    (ho : o.source ∉ v.severed) :
    ∃ v', step v .unblock = some v' ∧ v'.log = v.log ++ [.started o] ∧
      (∃ t ∈ v'.tasks, t.order = o ∧ t.status = .running) ∧
      (v'.delivery.lane (if par then label else none)).queue = q := by
  obtain ⟨h, hp⟩ := run_parallel hr
  obtain ⟨k, hk, hl⟩ := h.ukey label (by rw [hu]; exact List.mem_cons_self ..)
  have hkl : (if par then label else none) = k := by
    rw [hp] at hl
    unfold lkey at hl
    cases par
    · simpa using hl
    · cases label with
      | none => simp at hl
      | some l => simpa using hl
  rw [hkl] at hq ⊢
  simp only [step, hu, Svc.fuel, Svc.serveNext, popNext_eq hl hk, popNextImpl, hq, ho, if_false]
  refine ⟨_, rfl, rfl, ⟨_, List.mem_append.mpr (.inr (List.mem_singleton.mpr rfl)), rfl, rfl⟩, ?_⟩
  simp [Svc.start]

/-- **C22**, the next request starts at once (workflows): when an active request ends, the
oldest waiting request of its queue is started in that same step. -/
theorem C22_next_starts_workflow (par : Bool) (es : List Ev) (v : Svc)
    (hr : run (Svc.fresh .workflow par) es = some v) (t : Task) (ht : t ∈ v.tasks)
    (k : Option Nat) (hk : queueOf par t.order = some k) (o : Order) (q : List Order)
    (hq : (v.delivery.lane k).queue = o :: q) (ho : o.source ∉ v.severed) :
    ∃ v', step v (.finish t.order.id) = some v' ∧
      v'.log = v.log ++ [.responded t.order] ++ [.started o] ∧
      (∃ u ∈ v'.tasks, u.order = o ∧ u.status = .running) ∧
      (v'.delivery.lane k).queue = q := by
  obtain ⟨h, hp⟩ := run_parallel hr
  have hkind : v.kind = .workflow := run_kind es _ _ hr
  have hf : ∃ u, v.tasks.find? (fun u => u.order.id == t.order.id &&
      (u.status == .running || v.kind == .workflow)) = some u := by
    cases hf : v.tasks.find? (fun u => u.order.id == t.order.id &&
        (u.status == .running || v.kind == .workflow)) with
    | some u => exact ⟨u, rfl⟩
    | none =>
      have := List.find?_eq_none.mp hf t ht
      simp [hkind] at this
  obtain ⟨u, hf⟩ := hf
  have hu := List.mem_of_find?_eq_some hf
  have hid : u.order.id = t.order.id := by
    have := List.find?_some hf
    simp only [Bool.and_eq_true, beq_iff_eq] at this
    exact this.1
  have hut : u.order = t.order := h.task_of_id hu ht hid
  have hb := h.blk u hu
  rw [hut] at hb
  rw [← hp] at hk
  rw [hk] at hb
  simp only [Option.map_some] at hb
  have hl := lkey_label v.delivery.parallel t.order
  rw [hk] at hl
  have hkk := h.tkey t ht k hk
  simp only [step, hf, Svc.release, hb, hut]
  rw [hkind]
  have hl' : lkey v.delivery.parallel (t.order.instr.map Instr.label) = some k := hl
  simp only [Svc.fuel, Svc.serveNext, popNext_eq hl' hkk, popNextImpl, hq, ho, if_false]
  refine ⟨_, rfl, rfl, ⟨_, List.mem_append.mpr (.inr (List.mem_singleton.mpr rfl)), rfl, rfl⟩, ?_⟩
  simp [Svc.start]

theorem serveNext_running (label : Option Nat) : ∀ (fuel : Nat) (v v' : Svc),
    v.serveNext label fuel = some v' → (∀ t ∈ v.tasks, t.status = .running) →
    v'.cancels = v.cancels ∧ ∀ t ∈ v'.tasks, t.status = .running := by
  intro fuel
  induction fuel with
  | zero => intro v v' h; cases h
  | succ fuel ih =>
    intro v v' h hv
    simp only [Svc.serveNext] at h
    split at h
    · cases h
    · cases h; exact ⟨rfl, hv⟩
    · split at h
      · have := ih _ _ h hv
        exact this
      · cases h
        refine ⟨rfl, ?_⟩
        intro t ht
        simp only [Svc.start, List.mem_append, List.mem_singleton] at ht
        rcases ht with ht | rfl
        · exact hv t ht
        · rfl

/-- The requests in the queue of a continuous service are never half finished. -/
theorem run_running (es : List Ev) : ∀ (v v' : Svc), v.kind = .continuous → v.cancels = [] →
    (∀ t ∈ v.tasks, t.status = .running) → run v es = some v' →
    v'.cancels = [] ∧ ∀ t ∈ v'.tasks, t.status = .running := by
  induction es with
  | nil => intro v v' _ hc h hr; cases hr; exact ⟨hc, h⟩
  | cons e es ih =>
    intro v v' hk hc h hr
    simp only [run] at hr
    split at hr
    · cases hr
    rename_i v1 h1
    have hrel : ∀ (w : Svc) t r, w.kind = .continuous → w.cancels = [] →
        (∀ t ∈ w.tasks, t.status = .running) → w.release t r = some v1 →
        v1.cancels = [] ∧ ∀ t ∈ v1.tasks, t.status = .running := by
      intro w t r hwk hwc hw hr
      have hw' : ∀ u ∈ w.tasks.filter (fun u => u.order.id != t.order.id), u.status = .running :=
        fun u hu => hw u (List.mem_filter.mp hu).1
      unfold Svc.release at hr
      split at hr
      · cases hr; exact ⟨hwc, hw'⟩
      · simp only [hwk] at hr
        have := serveNext_running _ _ _ _ hr hw'
        exact ⟨this.1.trans hwc, this.2⟩
    have h2 : v1.cancels = [] ∧ ∀ t ∈ v1.tasks, t.status = .running := by
      cases e with
      | arrive source session instr =>
        simp only [step, Svc.serve] at h1
        split at h1
        · cases h1
        · cases h1
          refine ⟨hc, ?_⟩
          intro t ht
          simp only [Svc.start, List.mem_append, List.mem_singleton] at ht
          rcases ht with ht | rfl
          · exact h t ht
          · rfl
        · split at h1
          · cases h1; exact ⟨hc, h⟩
          · simp only [Svc.stop, hk] at h1
            split at h1
            · exact hrel _ _ _ rfl (by exact hc) (by exact h) h1
            · cases h1; exact ⟨hc, h⟩
      | finish id =>
        simp only [step] at h1
        split at h1
        · cases h1; exact ⟨hc, h⟩
        · exact hrel _ _ _ hk hc h h1
      | cancelDone id =>
        simp only [step] at h1
        split at h1
        · cases h1; exact ⟨hc, h⟩
        · exact hrel _ _ _ hk hc h h1
      | unblock =>
        simp only [step] at h1
        split at h1
        · cases h1; exact ⟨hc, h⟩
        · have := serveNext_running _ _ _ _ h1 h
          exact ⟨this.1.trans hc, this.2⟩
      | cancelNow =>
        simp only [step, hc, Option.some.injEq] at h1
        subst h1
        exact ⟨hc, h⟩
      | cleanup a b =>
        simp only [step, Svc.cleanTasks, hk, Option.some.injEq] at h1
        subst h1
        exact ⟨hc, fun t ht => h t (List.mem_filter.mp ht).1⟩
      | sever a =>
        simp only [step, Option.some.injEq] at h1
        subst h1
        exact ⟨hc, h⟩
    exact ih v1 v' (by rw [step_kind h1]; exact hk) h2.1 h2.2 hr

/-- **C22**, the next request starts at once (continuous services): when an active request
is answered, the oldest waiting request of its queue joins the queue that the system sees
in that same step. -/
theorem C22_next_starts_continuous (par : Bool) (es : List Ev) (v : Svc)
    (hr : run (Svc.fresh .continuous par) es = some v) (t : Task) (ht : t ∈ v.tasks)
    (k : Option Nat) (hk : queueOf par t.order = some k) (o : Order) (q : List Order)
    (hq : (v.delivery.lane k).queue = o :: q) (ho : o.source ∉ v.severed) :
    ∃ v', step v (.finish t.order.id) = some v' ∧
      v'.log = v.log ++ [.responded t.order] ++ [.started o] ∧
      (∃ u ∈ v'.tasks, u.order = o ∧ u.status = .running) ∧
      (v'.delivery.lane k).queue = q := by
  obtain ⟨h, hp⟩ := run_parallel hr
  have hkind : v.kind = .continuous := run_kind es _ _ hr
  have hrun := (run_running es _ v rfl rfl (by simp [Svc.fresh]) hr).2
  have hf : v.tasks.find? (fun u => u.order.id == t.order.id &&
      (u.status == .running || v.kind == .workflow)) ≠ none := by
    intro hf
    have := List.find?_eq_none.mp hf t ht
    simp [hrun t ht] at this
  obtain ⟨u, hf⟩ := Option.ne_none_iff_exists'.mp hf
  have hu := List.mem_of_find?_eq_some hf
  have hid : u.order.id = t.order.id := by
    have := List.find?_some hf
    simp only [Bool.and_eq_true, beq_iff_eq] at this
    exact this.1
  have hut : u.order = t.order := h.task_of_id hu ht hid
  have hb := h.blk u hu
  rw [hut] at hb
  rw [← hp] at hk
  rw [hk] at hb
  simp only [Option.map_some] at hb
  have hl := lkey_label v.delivery.parallel t.order
  rw [hk] at hl
  have hkk := h.tkey t ht k hk
  simp only [step, hf, Svc.release, hb, hut]
  rw [hkind]
  have hl' : lkey v.delivery.parallel (t.order.instr.map Instr.label) = some k := hl
  simp only [Svc.fuel, Svc.serveNext, popNext_eq hl' hkk, popNextImpl, hq, ho, if_false]
  refine ⟨_, rfl, rfl, ⟨_, List.mem_append.mpr (.inr (List.mem_singleton.mpr rfl)), rfl, rfl⟩, ?_⟩
  simp [Svc.start]

/-- A serial queue of a continuous service whose blocker is gone. -/
def Stuck (v : Svc) : Prop :=
  v.kind = .continuous ∧ v.delivery.parallel = false ∧ v.tasks = [] ∧ v.unblocks = [] ∧
    ∃ d, (v.delivery.lane none).delivering = some d

theorem stuck_step {v v' : Svc} {e : Ev} (h : Stuck v)
    (hn : ∀ a b c, e = .arrive a b c → ¬ Preempts c) (hs : step v e = some v') :
    Stuck v' ∧ started v'.log = started v.log := by
  obtain ⟨hk, hp, ht, hu, d, hd⟩ := h
  cases e with
  | arrive source session instr =>
    have hpre := hn _ _ _ rfl
    have hser : ∃ l, insertSerialOrder (v.delivery.lane none) ⟨v.next, source, session, instr⟩ =
        some ({ v.delivery.lane none with
          queue := (v.delivery.lane none).queue ++ [⟨v.next, source, session, instr⟩] },
          .queued [] none l) := by
      unfold insertSerialOrder
      rw [hd]
      cases instr with
      | none => exact ⟨none, by simp [hd]⟩
      | some i =>
        have : i.preempt = false := by
          cases hpre' : i.preempt
          · rfl
          · exact absurd ⟨i, rfl, hpre'⟩ hpre
        exact ⟨some i.label, by simp [this, hd]⟩
    obtain ⟨l, hser⟩ := hser
    simp only [step, Svc.serve, insertNewOrder, hp, hser, Option.map_some, Bool.false_eq_true,
      if_false, Option.some.injEq] at hs
    subst hs
    refine ⟨⟨hk, hp, ht, hu, d, by simp [hd]⟩, by simp [started]⟩
  | finish id => simp [step, ht] at hs; subst hs; exact ⟨⟨hk, hp, ht, hu, d, hd⟩, rfl⟩
  | cancelDone id => simp [step, ht] at hs; subst hs; exact ⟨⟨hk, hp, ht, hu, d, hd⟩, rfl⟩
  | unblock => simp [step, hu] at hs; subst hs; exact ⟨⟨hk, hp, ht, hu, d, hd⟩, rfl⟩
  | cancelNow =>
    simp only [step] at hs
    split at hs
    · cases hs; exact ⟨⟨hk, hp, ht, hu, d, hd⟩, rfl⟩
    · cases hs; exact ⟨⟨hk, hp, by simp [ht], hu, d, hd⟩, rfl⟩
  | cleanup a b =>
    simp only [step, Svc.cleanTasks, hk, ht, Option.some.injEq] at hs
    subst hs
    exact ⟨⟨rfl, hp, by simp, hu, d, hd⟩, by simp⟩
  | sever a =>
    simp only [step, Option.some.injEq] at hs
    subst hs
    exact ⟨⟨hk, hp, ht, hu, d, hd⟩, rfl⟩

theorem stuck_run (es : List Ev) : ∀ {v v' : Svc}, Stuck v → NoPreempt es → run v es = some v' →
    started v'.log = started v.log := by
  induction es with
  | nil => intro v v' _ _ h; cases h; rfl
  | cons e es ih =>
    intro v v' h hn hr
    simp only [run] at hr
    split at hr
    · cases hr
    · rename_i v1 h1
      have := stuck_step h (fun a b c he => hn a b c (by rw [he]; exact List.mem_cons_self ..)) h1
      rw [ih this.1 (fun a b c hm => hn a b c (List.mem_cons_of_mem _ hm)) hr, this.2]

/-- **C59** fails for continuous services: the active request of a serial continuous service
is removed because its session is cleaned up (for example because its workflow was
cancelled). Its blocker is dropped without being released
(src/service/continuous.rs:519-530), so the waiting request – of another session – is never
started, and neither is any request that arrives later, whatever happens, unless one of
them pre-empts. -/
theorem C59_stuck_violated : ∃ es v, run (Svc.fresh .continuous false) es = some v ∧
    NoPreempt es ∧
    (waiting v).map (·.session) = [20] ∧ (∀ a, Ev.cleanup a 20 ∉ es) ∧
    ∀ es' v', NoPreempt es' → run v es' = some v' → started v'.log = started v.log := by
  refine ⟨[.arrive 1 10 none, .arrive 2 20 none, .cleanup 1 10], _, rfl, ?_, rfl, ?_, ?_⟩
  · rintro a b c h ⟨i, hi, hp⟩
    simp only [List.mem_cons, Ev.arrive.injEq, reduceCtorEq, List.not_mem_nil, or_false] at h
    rcases h with ⟨_, _, rfl⟩ | ⟨_, _, rfl⟩ <;> cases hi
  · intro a h
    simp at h
  · intro es' v' hn hr
    exact stuck_run es' ⟨rfl, rfl, rfl, rfl, _, rfl⟩ hn hr

/-- Two requests of a serial service, the first one finished. -/
example : ∃ v, run (Svc.fresh .async false) [.arrive 1 10 none, .arrive 2 20 none, .finish 0]
    = some v ∧ v.unblocks = [none] ∧ (v.delivery.lane none).queue = [⟨1, 2, 20, none⟩] :=
  ⟨_, rfl, rfl, rfl⟩

example : ∃ v, run (Svc.fresh .workflow true) [.arrive 1 10 (some { label := 5 }),
    .arrive 2 20 (some { label := 5 })] = some v ∧
    (v.delivery.lane (some 5)).queue = [⟨1, 2, 20, some { label := 5 }⟩] ∧
    v.tasks.map (·.order.id) = [0] := ⟨_, rfl, rfl, rfl⟩

/-! ### C23: pre-emption -/

/-- **C23**. A pre-empting request arrives at a queue whose active request is `d`. The
waiting requests with its label that are not protected are discarded, in order, and
reported; all others stay, in order, and the new one goes behind all of them. No other
queue changes. If `d` is protected or has another label, no task is touched. Otherwise `d`
is told to stop: exactly its task is put to stopping (asynchronous services), resp. the
cancellation of its session is requested (workflows). What a continuous service does in
that case: `C23_preempt_continuous`. -/
theorem C23_preempt (kind : Kind) (par : Bool) (es : List Ev) (v : Svc)
    (hr : run (Svc.fresh kind par) es = some v) (source session : Nat) (i : Instr)
    (hi : i.preempt = true) (o : Order) (ho : o = ⟨v.next, source, session, some i⟩)
    (k : Option Nat) (hk : queueOf par o = some k) (d : Order)
    (hd : (v.delivery.lane k).delivering = some d) (hc : kind = .continuous → ¬ Loses o d) :
    ∃ v', step v (.arrive source session (some i)) = some v' ∧
      (v'.delivery.lane k).queue =
        (v.delivery.lane k).queue.filter (fun e => decide (¬ Loses o e)) ++ [o] ∧
      (v'.delivery.lane k).delivering = some d ∧
      (∀ k', k' ≠ k → v'.delivery.lane k' = v.delivery.lane k') ∧
      v'.log = v.log ++ [.accepted o] ++
        ((v.delivery.lane k).queue.filter fun e => decide (Loses o e)).map .discarded ∧
      (¬ Loses o d → v'.tasks = v.tasks ∧ v'.unblocks = v.unblocks ∧ v'.cancels = v.cancels) ∧
      (Loses o d → kind = .workflow →
        v'.tasks = v.tasks ∧ v'.unblocks = v.unblocks ∧ v'.cancels = v.cancels ++ [d.session]) ∧
      (Loses o d → kind = .async → (∃ t ∈ v.tasks, t.order = d ∧ t.status ≠ .gone) →
        v'.unblocks = v.unblocks ∧
        v'.tasks = v.tasks.map fun t =>
          if t.order.id = d.id ∧ t.status = .running then { t with status := .stopping } else t) := by
  obtain ⟨hinv, hp⟩ := run_parallel hr
  have hkind : v.kind = kind := run_kind es _ _ hr
  subst ho
  have hlose : ∀ e : Order, e.instr.any (shouldDiscard i) =
      decide (Loses ⟨v.next, source, session, some i⟩ e) := by
    intro e
    rw [Bool.eq_iff_iff, decide_eq_true_iff]
    unfold Loses shouldDiscard
    cases he : e.instr with
    | none => simp
    | some j => simp
  have hins : insertNewOrder v.delivery ⟨v.next, source, session, some i⟩ =
      some (v.delivery.set k { delivering := some d,
                               queue := (v.delivery.lane k).queue.filter
                                  (fun e => !(e.instr.any (shouldDiscard i))) ++
                                  [⟨v.next, source, session, some i⟩] },
        .queued ((v.delivery.lane k).queue.filter (fun e => e.instr.any (shouldDiscard i)))
          (if d.instr.any (shouldDiscard i) then some d else none) (some i.label)) := by
    rcases insertNewOrder_eq v.delivery ⟨v.next, source, session, some i⟩ with
      ⟨hq, _⟩ | ⟨k', hq, he⟩
    · rw [hp, hk] at hq
      cases hq
    · rw [hp, hk] at hq
      cases hq
      rw [he]
      simp [insertSerialOrder, hd, hi]
  simp only [step, Svc.serve, hins]
  simp only [hlose]
  by_cases hld : Loses ⟨v.next, source, session, some i⟩ d
  · simp only [hld, decide_true, if_true]
    cases kind
    · by_cases hany : (v.tasks.any fun t => t.order.id == d.id && t.status != .gone) = true
      · simp only [Svc.stop, hkind, hany, if_true]
        refine ⟨_, rfl, by simp, by simp, fun k' hne => by simp [hne], by simp,
          fun h => absurd trivial h, fun _ h => (by cases h), fun _ _ _ => ⟨rfl, ?_⟩⟩
        apply List.map_congr_left
        intro u _
        by_cases hu : u.order.id = d.id
        · cases hus : u.status <;> simp [hu, stopStatus, hus] <;> (cases u; simp_all)
        · simp [hu]
      · simp only [Svc.stop, hkind, hany, if_false]
        refine ⟨_, rfl, by simp, by simp, fun k' hne => by simp [hne], by simp,
          fun h => absurd trivial h, fun _ h => (by cases h), ?_⟩
        rintro _ _ ⟨t, ht, htd, hts⟩
        exfalso
        apply hany
        rw [List.any_eq_true]
        exact ⟨t, ht, by simp [htd, hts]⟩
    · simp only [Svc.stop, hkind]
      exact ⟨_, rfl, by simp, by simp, fun k' hne => by simp [hne], by simp,
        fun h => absurd trivial h, fun _ _ => ⟨rfl, rfl, rfl⟩, fun _ h => (by cases h)⟩
    · exact absurd hld (hc rfl)
  · simp only [hld, decide_false, Bool.false_eq_true, if_false]
    refine ⟨_, rfl, ?_, ?_, ?_, ?_, ?_, ?_, ?_⟩
    · simp
    · simp
    · intro k' hne; simp [hne]
    · simp
    · intro _; exact ⟨rfl, rfl, rfl⟩
    · intro h; exact h.elim
    · intro h; exact h.elim

/-- **C23** for continuous services. A pre-empting request that finds an unprotected active
request `d` of its label stops it at once: `d` leaves the queue that the system sees, the
unprotected waiting requests of the label are discarded, and the first of the remaining
ones – the new one, unless protected or foreign requests are ahead of it – takes the place
of `d`. Nothing else changes. -/
theorem C23_preempt_continuous (par : Bool) (es : List Ev) (v : Svc)
    (hr : run (Svc.fresh .continuous par) es = some v) (source session : Nat) (i : Instr)
    (hi : i.preempt = true) (o : Order) (ho : o = ⟨v.next, source, session, some i⟩)
    (k : Option Nat) (hk : queueOf par o = some k) (d : Order)
    (hd : (v.delivery.lane k).delivering = some d) (hl : Loses o d)
    (t : Task) (ht : t ∈ v.tasks) (htd : t.order = d) (x : Order) (q : List Order)
    (hx : (v.delivery.lane k).queue.filter (fun e => decide (¬ Loses o e)) ++ [o] = x :: q)
    (hs : x.source ∉ v.severed) :
    ∃ v', step v (.arrive source session (some i)) = some v' ∧
      (v'.delivery.lane k).queue = q ∧
      (∀ k', k' ≠ k → v'.delivery.lane k' = v.delivery.lane k') ∧
      v'.log = v.log ++ [.accepted o] ++
        ((v.delivery.lane k).queue.filter fun e => decide (Loses o e)).map .discarded ++
        [.stopped d, .started x] ∧
      active v' = (active v).filter (fun e => decide (e ≠ d)) ++ [x] ∧
      v'.unblocks = v.unblocks := by
  obtain ⟨hinv, hp⟩ := run_parallel hr
  have hkind : v.kind = .continuous := run_kind es _ _ hr
  subst ho
  have hlose : ∀ e : Order, e.instr.any (shouldDiscard i) =
      decide (Loses ⟨v.next, source, session, some i⟩ e) := by
    intro e
    rw [Bool.eq_iff_iff, decide_eq_true_iff]
    unfold Loses shouldDiscard
    cases he : e.instr with
    | none => simp
    | some j => simp
  have hins : insertNewOrder v.delivery ⟨v.next, source, session, some i⟩ =
      some (v.delivery.set k { delivering := some d, queue := x :: q },
        .queued ((v.delivery.lane k).queue.filter
            (fun e => decide (Loses ⟨v.next, source, session, some i⟩ e)))
          (some d) (some i.label)) := by
    rcases insertNewOrder_eq v.delivery ⟨v.next, source, session, some i⟩ with
      ⟨hq, _⟩ | ⟨k', hq, he⟩
    · rw [hp, hk] at hq
      cases hq
    · rw [hp, hk] at hq
      cases hq
      rw [he]
      simp only [insertSerialOrder, hd, hi, if_true, hlose, hl, decide_true]
      rw [← hx]
      simp [hd]
  have hf : v.tasks.find? (fun t => t.order.id == d.id) ≠ none := by
    intro hf
    have := List.find?_eq_none.mp hf t ht
    simp [htd] at this
  obtain ⟨u, hu⟩ := Option.ne_none_iff_exists'.mp hf
  have hum := List.mem_of_find?_eq_some hu
  have hud : u.order = d := by
    have := List.find?_some hu
    simp only [beq_iff_eq] at this
    rw [← htd] at this ⊢
    exact hinv.task_of_id hum ht this
  have hdk := hinv.dkey k d hd
  have hb := hinv.blk u hum
  rw [hud, hdk] at hb
  simp only [Option.map_some] at hb
  have hlk := lkey_label v.delivery.parallel d
  rw [hdk] at hlk
  simp only [step, Svc.serve, hins, Svc.stop, hkind, hu, Svc.release, hb, Svc.fuel, Svc.serveNext]
  have hlk' : lkey (v.delivery.set k { delivering := some d, queue := x :: q }).parallel
      (d.instr.map Instr.label) = some k := hlk
  rw [popNext_eq hlk' ((mem_set_keys _ _ _ _).mpr (.inr rfl))]
  simp only [popNextImpl, set_lane, if_true, hs, if_false]
  refine ⟨_, rfl, ?_, ?_, ?_, ?_, rfl⟩
  · simp [Svc.start]
  · intro k' hne
    simp [Svc.start, hne]
  · simp [Svc.start, hud]
  · simp only [active, Svc.start, List.map_append, List.map_cons, List.map_nil, hud]
    congr 1
    rw [List.filter_map]
    congr 1
    apply List.filter_congr
    intro w hw
    simp only [Function.comp_apply]
    rw [Bool.eq_iff_iff, bne_iff_ne, decide_eq_true_iff]
    constructor
    · exact fun h1 h2 => h1 (by rw [h2])
    · intro h1 h2
      exact h1 (by rw [← htd] at h2 ⊢; exact hinv.task_of_id hw ht h2)

/-- A continuous service with an active request and a waiting one without label; the
pre-empting request replaces the active one by the waiting one. -/
example : ∃ v v', run (Svc.fresh .continuous false)
    [.arrive 1 10 (some { label := 0 }), .arrive 2 20 none] = some v ∧
    step v (.arrive 3 30 (some { label := 0, preempt := true })) = some v' ∧
    (active v).map (·.id) = [0] ∧ (active v').map (·.id) = [1] ∧ (waiting v').map (·.id) = [2] :=
  ⟨_, _, rfl, rfl, rfl, rfl, rfl⟩

/-- **C23**, a request that does not pre-empt disturbs nothing: it is put behind the waiting
requests; nothing is discarded or stopped. -/
theorem C23_no_preempt (kind : Kind) (par : Bool) (es : List Ev) (v : Svc)
    (hr : run (Svc.fresh kind par) es = some v) (source session : Nat) (instr : Option Instr)
    (hi : ¬ Preempts instr) (o : Order) (ho : o = ⟨v.next, source, session, instr⟩)
    (k : Option Nat) (hk : queueOf par o = some k) (d : Order)
    (hd : (v.delivery.lane k).delivering = some d) :
    ∃ v', step v (.arrive source session instr) = some v' ∧
      (v'.delivery.lane k).queue = (v.delivery.lane k).queue ++ [o] ∧
      (∀ k', k' ≠ k → v'.delivery.lane k' = v.delivery.lane k') ∧
      v'.log = v.log ++ [.accepted o] ∧ v'.tasks = v.tasks ∧ v'.unblocks = v.unblocks ∧
      v'.cancels = v.cancels := by
  obtain ⟨hinv, hp⟩ := run_parallel hr
  subst ho
  have hser : ∃ l, insertSerialOrder (v.delivery.lane k) ⟨v.next, source, session, instr⟩ =
      some ({ v.delivery.lane k with
        queue := (v.delivery.lane k).queue ++ [⟨v.next, source, session, instr⟩] },
        .queued [] none l) := by
    unfold insertSerialOrder
    rw [hd]
    cases instr with
    | none => exact ⟨none, by simp [hd]⟩
    | some i =>
      have : i.preempt = false := by
        cases hpre : i.preempt
        · rfl
        · exact absurd ⟨i, rfl, hpre⟩ hi
      exact ⟨some i.label, by simp [this, hd]⟩
  obtain ⟨l, hser⟩ := hser
  have hins : insertNewOrder v.delivery ⟨v.next, source, session, instr⟩ =
      some (v.delivery.set k { v.delivery.lane k with
        queue := (v.delivery.lane k).queue ++ [⟨v.next, source, session, instr⟩] },
        .queued [] none l) := by
    rcases insertNewOrder_eq v.delivery ⟨v.next, source, session, instr⟩ with
      ⟨hq, _⟩ | ⟨k', hq, he⟩
    · rw [hp, hk] at hq
      cases hq
    · rw [hp, hk] at hq
      cases hq
      rw [he, hser]
      rfl
  simp only [step, Svc.serve, hins]
  refine ⟨_, rfl, ?_, ?_, ?_, rfl, rfl, rfl⟩
  · simp
  · intro k' hne; simp [hne]
  · simp

/-- A serial service that carries out request 0 and has three waiting requests, one of
them protected and one with another label. -/
def busyRun : List Ev :=
  [.arrive 1 10 (some { label := 0 }), .arrive 2 20 (some { label := 0 }),
   .arrive 3 30 (some { label := 0, ensure := true }), .arrive 4 40 (some { label := 1 })]

example : ∃ v, run (Svc.fresh .async false) busyRun = some v ∧
    (v.delivery.lane none).delivering = some ⟨0, 1, 10, some { label := 0 }⟩ ∧
    (v.delivery.lane none).queue.map (·.id) = [1, 2, 3] ∧
    Loses ⟨v.next, 5, 50, some { label := 0, preempt := true }⟩ ⟨0, 1, 10, some { label := 0 }⟩ :=
  ⟨_, rfl, rfl, rfl, by decide⟩

/-- A protected request is never discarded, whatever happens. -/
theorem discarded_step {v v' : Svc} {e : Ev} (hs : step v e = some v')
    (h : ∀ o ∈ discarded v.log, ∀ i, o.instr = some i → i.ensure = false)
    (hnone : ∀ o ∈ discarded v.log, o.instr ≠ none) :
    (∀ o ∈ discarded v'.log, ∀ i, o.instr = some i → i.ensure = false) ∧
    (∀ o ∈ discarded v'.log, o.instr ≠ none) := by
  have happ : ∀ l l', discarded (l ++ l') = discarded l ++ discarded l' := by
    intro l l'; simp [discarded]
  have hnext : ∀ label fuel (w w' : Svc), w.serveNext label fuel = some w' →
      discarded w'.log = discarded w.log := by
    intro label fuel
    induction fuel with
    | zero => intro w w' h; cases h
    | succ fuel ih =>
      intro w w' h
      simp only [Svc.serveNext] at h
      split at h
      · cases h
      · cases h; rfl
      · split at h
        · rw [ih _ _ h, happ]
          simp [discarded]
        · cases h
          simp [Svc.start, happ]
          simp [discarded]
  have hrel : ∀ (w : Svc) t r, discarded [r] = [] → w.release t r = some v' →
      discarded v'.log = discarded w.log := by
    intro w t r hr h
    unfold Svc.release at h
    split at h
    · cases h; simp [happ, hr]
    · split at h
      · cases h; simp [happ, hr]
      · rw [hnext _ _ _ _ h]; simp [happ, hr]
      · rw [hnext _ _ _ _ h]; simp [happ, hr]
  have hmain : ∃ D : List Order, discarded v'.log = discarded v.log ++ D ∧
      ∀ o ∈ D, ∃ i, o.instr = some i ∧ i.ensure = false := by
    cases e with
    | arrive source session instr =>
      simp only [step, Svc.serve] at hs
      have hser : ∀ q o d c s l, insertSerialOrder q o = some (d, .queued c s l) →
          ∀ x ∈ c, ∃ i, x.instr = some i ∧ i.ensure = false := by
        intro q o d c s l h x hx
        unfold insertSerialOrder at h
        split at h
        · split at h <;> cases h
        · split at h
          · cases h; cases hx
          · split at h
            · cases h
              have := (List.mem_filter.mp hx).2
              unfold shouldDiscard at this
              cases hi : x.instr with
              | none => simp [hi] at this
              | some i => simp [hi] at this; exact ⟨i, rfl, this.2⟩
            · cases h; cases hx
      have hins : ∀ d c s l, insertNewOrder v.delivery
          { id := v.next, source, session, instr } = some (d, .queued c s l) →
          ∀ x ∈ c, ∃ i, x.instr = some i ∧ i.ensure = false := by
        intro d c s l h
        unfold insertNewOrder at h
        split at h
        · split at h
          · simp only [Option.map_eq_some_iff] at h
            obtain ⟨⟨q, u⟩, h1, h2⟩ := h
            cases h2
            exact hser _ _ _ _ _ _ h1
          · cases h
        · simp only [Option.map_eq_some_iff] at h
          obtain ⟨⟨q, u⟩, h1, h2⟩ := h
          cases h2
          exact hser _ _ _ _ _ _ h1
      have hd : ∀ c : List Order, discarded (c.map .discarded) = c := by
        intro c
        induction c <;> simp_all [discarded]
      split at hs
      · cases hs
      · cases hs
        refine ⟨[], ?_, by simp⟩
        simp [Svc.start, happ]
        simp [discarded]
      · rename_i d c s l hi
        refine ⟨c, ?_, hins d c s l hi⟩
        split at hs
        · cases hs
          simp only [happ, hd]
          simp [discarded]
        · unfold Svc.stop at hs
          dsimp only at hs
          split at hs
          · split at hs <;> cases hs <;> (simp only [happ, hd]; simp [discarded])
          · cases hs; simp only [happ, hd]; simp [discarded]
          · split at hs
            · rw [hrel _ _ _ rfl hs]; simp only [happ, hd]; simp [discarded]
            · cases hs; simp only [happ, hd]; simp [discarded]
    | finish id =>
      simp only [step] at hs
      refine ⟨[], ?_, by simp⟩
      rw [List.append_nil]
      split at hs
      · cases hs; rfl
      · exact hrel _ _ _ rfl hs
    | cancelDone id =>
      simp only [step] at hs
      refine ⟨[], ?_, by simp⟩
      rw [List.append_nil]
      split at hs
      · cases hs; rfl
      · refine hrel _ _ _ ?_ hs
        split <;> rfl
    | unblock =>
      simp only [step] at hs
      refine ⟨[], ?_, by simp⟩
      rw [List.append_nil]
      split at hs
      · cases hs; rfl
      · have := hnext _ _ _ _ hs
        exact this
    | cancelNow =>
      simp only [step] at hs
      refine ⟨[], ?_, by simp⟩
      rw [List.append_nil]
      split at hs <;> cases hs <;> rfl
    | cleanup a b =>
      simp only [step, Option.some.injEq] at hs
      refine ⟨[], ?_, by simp⟩
      subst hs
      rw [List.append_nil]
      have : ∀ c : List Order, discarded (c.map .removed) = [] := by
        intro c
        induction c <;> simp_all [discarded]
      have h2 : ∀ c : List Task, discarded (c.map fun t => Rec.cleaned t.order) = [] := by
        intro c
        induction c <;> simp_all [discarded]
      unfold Svc.cleanTasks
      split <;> simp [happ, this, h2]
    | sever a =>
      simp only [step, Option.some.injEq] at hs
      subst hs
      exact ⟨[], by simp, by simp⟩
  obtain ⟨D, hD, hall⟩ := hmain
  rw [hD]
  constructor
  · intro o ho i hi
    rcases List.mem_append.mp ho with ho | ho
    · exact h o ho i hi
    · obtain ⟨j, hj, he⟩ := hall o ho
      rw [hi] at hj
      cases hj
      exact he
  · intro o ho
    rcases List.mem_append.mp ho with ho | ho
    · exact hnone o ho
    · obtain ⟨j, hj, _⟩ := hall o ho
      rw [hj]
      simp

/-- **C23**, protection: in no run is a request that is marked `ensure`, or that has no
label, ever discarded from a queue. -/
theorem C23_protected_not_discarded (kind : Kind) (par : Bool) (es : List Ev) (v : Svc)
    (hr : run (Svc.fresh kind par) es = some v) (o : Order) (ho : o ∈ discarded v.log) :
    ∃ i, o.instr = some i ∧ i.ensure = false := by
  have : ∀ (es : List Ev) (w w' : Svc),
      (∀ o ∈ discarded w.log, ∀ i, o.instr = some i → i.ensure = false) →
      (∀ o ∈ discarded w.log, o.instr ≠ none) → run w es = some w' →
      (∀ o ∈ discarded w'.log, ∀ i, o.instr = some i → i.ensure = false) ∧
      (∀ o ∈ discarded w'.log, o.instr ≠ none) := by
    intro es
    induction es with
    | nil => intro w w' h1 h2 h; cases h; exact ⟨h1, h2⟩
    | cons e es ih =>
      intro w w' h1 h2 h
      simp only [run] at h
      split at h
      · cases h
      · rename_i w1 hs
        have := discarded_step hs h1 h2
        exact ih w1 w' this.1 this.2 h
  have h := this es _ v (by simp [Svc.fresh, discarded]) (by simp [Svc.fresh, discarded]) hr
  cases hi : o.instr with
  | none => exact absurd hi (h.2 o ho)
  | some i => exact ⟨i, rfl, h.1 o ho i hi⟩

example : ∃ v, run (Svc.fresh .async false)
    (busyRun ++ [.arrive 5 50 (some { label := 0, preempt := true })]) = some v ∧
    (discarded v.log).map (·.id) = [1] := ⟨_, rfl, rfl⟩

/-- The requests that were stopped, or are being stopped, by pre-emption. -/
def stopped (v : Svc) : List Order :=
  (v.log.filterMap fun | .stopped o => some o | _ => none) ++
    (v.tasks.filter fun t => t.status == .stopping).map (·.order)

/-- Not protected. -/
def Open (o : Order) : Prop := ∃ i, o.instr = some i ∧ i.ensure = false

theorem stopped_step {v v' : Svc} {e : Ev} (hinv : Inv none v) (hk : v.kind ≠ .workflow)
    (hs : step v e = some v') (h : ∀ o ∈ stopped v, Open o) (hcan : v.cancels = []) :
    (∀ o ∈ stopped v', Open o) ∧ v'.cancels = [] := by
  have hmem : ∀ (w : Svc) o, o ∈ stopped w ↔
      Rec.stopped o ∈ w.log ∨ ∃ t ∈ w.tasks, t.status = .stopping ∧ t.order = o := by
    intro w o
    unfold stopped
    rw [List.mem_append, List.mem_filterMap, List.mem_map]
    constructor
    · rintro (⟨r, hr, ho⟩ | ⟨t, ht, ho⟩)
      · cases r <;> simp at ho
        subst ho
        exact .inl hr
      · have := List.mem_filter.mp ht
        exact .inr ⟨t, this.1, by simpa using this.2, ho⟩
    · rintro (hr | ⟨t, ht, hst, ho⟩)
      · exact .inl ⟨_, hr, rfl⟩
      · exact .inr ⟨t, List.mem_filter.mpr ⟨ht, by simp [hst]⟩, ho⟩
  -- new entries of the log are not `stopped`, new tasks are running
  have frame : ∀ w w' : Svc, (∀ o, Rec.stopped o ∈ w'.log → Rec.stopped o ∈ w.log) →
      (∀ t ∈ w'.tasks, t.status = .stopping → ∃ u ∈ w.tasks, u.status = .stopping ∧
        u.order = t.order) → (∀ o ∈ stopped w, Open o) → ∀ o ∈ stopped w', Open o := by
    intro w w' h1 h2 h3 o ho
    apply h3
    rw [hmem] at ho ⊢
    rcases ho with ho | ⟨t, ht, hst, rfl⟩
    · exact .inl (h1 o ho)
    · exact .inr (h2 t ht hst)
  have hnext : ∀ label fuel (w w' : Svc), w.serveNext label fuel = some w' →
      (∀ o ∈ stopped w, Open o) → (∀ o ∈ stopped w', Open o) ∧ w'.cancels = w.cancels := by
    intro label fuel
    induction fuel with
    | zero => intro w w' h; cases h
    | succ fuel ih =>
      intro w w' h hw
      simp only [Svc.serveNext] at h
      split at h
      · cases h
      · cases h
        exact ⟨frame w _ (fun _ h => h) (fun t ht hst => ⟨t, ht, hst, rfl⟩) hw, rfl⟩
      · split at h
        · have := ih _ _ h (frame w _ (fun o h => by simpa using h)
            (fun t ht hst => ⟨t, ht, hst, rfl⟩) hw)
          exact this
        · cases h
          refine ⟨frame w _ (fun o h => by simpa [Svc.start] using h) ?_ hw, rfl⟩
          intro t ht hst
          simp only [Svc.start, List.mem_append, List.mem_singleton] at ht
          rcases ht with ht | rfl
          · exact ⟨t, ht, hst, rfl⟩
          · cases hst
  have hrel : ∀ (w : Svc) t r, w.kind ≠ .workflow → (∀ o ∈ stopped w, Open o) → w.cancels = [] →
      t ∈ w.tasks → (r = .stopped t.order → t.status = .stopping ∨ Open t.order) →
      (∀ o, r = .stopped o → o = t.order) → w.release t r = some v' →
      (∀ o ∈ stopped v', Open o) ∧ v'.cancels = [] := by
    intro w t r hk h hcan ht hr1 hr2 hrel
    have hbase : ∀ o ∈ stopped { w with
        tasks := w.tasks.filter (fun u => u.order.id != t.order.id), log := w.log ++ [r] },
        Open o := by
      intro o ho
      rw [hmem] at ho
      rcases ho with ho | ⟨u, hu, hst, hou⟩
      · rcases List.mem_append.mp ho with ho | ho
        · exact h o ((hmem _ _).mpr (.inl ho))
        · have hr : r = .stopped o := (List.mem_singleton.mp ho).symm
          have := hr2 o hr
          subst this
          rcases hr1 hr with hst | hop
          · exact h _ ((hmem _ _).mpr (.inr ⟨t, ht, hst, rfl⟩))
          · exact hop
      · exact h o ((hmem _ _).mpr (.inr ⟨u, (List.mem_filter.mp hu).1, hst, hou⟩))
    unfold Svc.release at hrel
    split at hrel
    · cases hrel; exact ⟨hbase, hcan⟩
    · split at hrel
      · cases hrel
        exact ⟨frame _ _ (fun _ h => h) (fun t ht hst => ⟨t, ht, hst, rfl⟩) hbase, hcan⟩
      · rename_i hw; exact absurd hw hk
      · have := hnext _ _ _ _ hrel hbase
        exact ⟨this.1, this.2.trans hcan⟩
  cases e with
  | arrive source session instr =>
    simp only [step, Svc.serve] at hs
    rcases insertNewOrder_eq v.delivery { id := v.next, source, session, instr } with
      ⟨hq, he⟩ | ⟨k, hq, he⟩
    · simp only [he, Option.some.injEq] at hs
      subst hs
      refine ⟨frame v _ (fun o h => by simpa [Svc.start] using h) ?_ h, hcan⟩
      intro t ht hst
      simp only [Svc.start, List.mem_append, List.mem_singleton] at ht
      rcases ht with ht | rfl
      · exact ⟨t, ht, hst, rfl⟩
      · cases hst
    · cases hser : insertSerialOrder (v.delivery.lane k) { id := v.next, source, session, instr } with
      | none => simp [he, hser] at hs
      | some r =>
        obtain ⟨s, u⟩ := r
        simp only [he, hser, Option.map_some] at hs
        cases u with
        | immediate b =>
          simp only [Option.some.injEq] at hs
          subst hs
          refine ⟨frame v _ (fun o h => by simpa [Svc.start] using h) ?_ h, hcan⟩
          intro t ht hst
          simp only [Svc.start, List.mem_append, List.mem_singleton] at ht
          rcases ht with ht | rfl
          · exact ⟨t, ht, hst, rfl⟩
          · cases hst
        | queued c st l =>
          have hlog : ∀ o, Rec.stopped o ∈ v.log ++ [Rec.accepted
              { id := v.next, source, session, instr }] ++ c.map .discarded →
              Rec.stopped o ∈ v.log := by
            intro o ho
            simpa using ho
          cases st with
          | none =>
            simp only [Option.some.injEq] at hs
            subst hs
            exact ⟨frame v _ hlog (fun t ht hst => ⟨t, ht, hst, rfl⟩) h, hcan⟩
          | some d =>
            have hd : (v.delivery.lane k).delivering = some d ∧ Open d := by
              unfold insertSerialOrder at hser
              split at hser
              · split at hser <;> cases hser
              · rename_i d' hd'
                split at hser
                · cases hser
                · split at hser
                  · simp only [Option.some.injEq, Prod.mk.injEq, Update.queued.injEq] at hser
                    have hsd := hser.2.2.1
                    split at hsd
                    · rename_i hx
                      cases hsd
                      refine ⟨hd', ?_⟩
                      unfold shouldDiscard at hx
                      cases hi : d.instr with
                      | none => simp [hi] at hx
                      | some i => simp [hi] at hx; exact ⟨i, hi, hx.2⟩
                    · cases hsd
                  · cases hser
            have hh : ∀ (w : Svc) o, w.tasks = v.tasks → (∀ o, Rec.stopped o ∈ w.log →
                Rec.stopped o ∈ v.log) → o ∈ stopped w → Open o := by
              intro w o hw hw' ho
              exact frame v w hw' (fun t ht hst => ⟨t, by rw [← hw]; exact ht, hst, rfl⟩) h o ho
            dsimp only at hs
            unfold Svc.stop at hs
            split at hs
            · split at hs
              · cases hs
                refine ⟨?_, hcan⟩
                intro o ho
                rw [hmem] at ho
                rcases ho with ho | ⟨t, ht, hst, hot⟩
                · exact h o ((hmem v o).mpr (.inl (hlog o ho)))
                · obtain ⟨u, hu, rfl⟩ := List.mem_map.mp ht
                  by_cases hid : u.order.id = d.id
                  · have : u.order = d := eq_of_id hinv.ids (hinv.mem_accepted_of_active hu)
                      (hinv.dacc k d hd.1) hid
                    simp only [hid, if_true] at hot
                    rw [← hot, this]
                    exact hd.2
                  · simp only [hid, if_false] at hst hot
                    exact h o ((hmem v o).mpr (.inr ⟨u, hu, hst, hot⟩))
              · cases hs
                refine ⟨fun o ho => hh _ o ?_ ?_ ho, hcan⟩
                · rfl
                · exact hlog
            · rename_i hw
              exact absurd hw hk
            · split at hs
              · rename_i t hf
                have ht : t ∈ v.tasks := List.mem_of_find?_eq_some hf
                have hid : t.order = d := by
                  have := List.find?_some hf
                  simp only [beq_iff_eq] at this
                  exact eq_of_id hinv.ids (hinv.mem_accepted_of_active ht)
                    (hinv.dacc k d hd.1) this
                refine hrel _ t _ ?_ ?_ ?_ ?_ (fun _ => .inr (by rw [hid]; exact hd.2)) ?_ hs
                · exact hk
                · intro o ho
                  refine hh _ o ?_ ?_ ho
                  · rfl
                  · exact hlog
                · exact hcan
                · exact ht
                · intro o ho; cases ho; rfl
              · cases hs
                refine ⟨fun o ho => hh _ o ?_ ?_ ho, hcan⟩
                · rfl
                · exact hlog
  | finish id =>
    simp only [step] at hs
    split at hs
    · cases hs; exact ⟨h, hcan⟩
    · rename_i t hf
      exact hrel v t _ hk h hcan (List.mem_of_find?_eq_some hf) (fun h => by cases h)
        (fun o h => by cases h) hs
  | cancelDone id =>
    simp only [step] at hs
    split at hs
    · cases hs; exact ⟨h, hcan⟩
    · rename_i t hf
      refine hrel v t _ hk h hcan (List.mem_of_find?_eq_some hf) ?_ ?_ hs
      · intro h
        split at h
        · exact .inl (by assumption)
        · cases h
      · intro o h
        split at h <;> cases h
        rfl
  | unblock =>
    simp only [step] at hs
    split at hs
    · cases hs; exact ⟨h, hcan⟩
    · have := hnext _ _ _ _ hs (frame v _ (fun _ h => h) (fun t ht hst => ⟨t, ht, hst, rfl⟩) h)
      exact ⟨this.1, this.2.trans hcan⟩
  | cancelNow =>
    simp only [step, hcan, Option.some.injEq] at hs
    subst hs
    exact ⟨h, hcan⟩
  | cleanup a b =>
    simp only [step, Option.some.injEq] at hs
    subst hs
    have hcl : ∀ t ∈ v.tasks.map (fun t => if t.order.source = a ∧ t.order.session = b then
        { t with status := cleanStatus t.status } else t), t.status = .stopping →
        ∃ u ∈ v.tasks, u.status = .stopping ∧ u.order = t.order := by
      intro t ht hst
      obtain ⟨u, hu, rfl⟩ := List.mem_map.mp ht
      refine ⟨u, hu, ?_, ?_⟩
      · split at hst
        · cases hus : u.status <;> simp [hus, cleanStatus] at hst ⊢
        · exact hst
      · split <;> rfl
    unfold Svc.cleanTasks
    split
    · exact ⟨frame v _ (fun o h => by simpa using h) hcl h, hcan⟩
    · exact ⟨frame v _ (fun o h => by simpa using h) hcl h, hcan⟩
    · refine ⟨frame v _ (fun o h => by simpa using h) ?_ h, hcan⟩
      exact fun t ht hst => ⟨t, (List.mem_filter.mp ht).1, hst, rfl⟩
  | sever a =>
    simp only [step, Option.some.injEq] at hs
    subst hs
    exact ⟨frame v _ (fun _ h => h) (fun t ht hst => ⟨t, ht, hst, rfl⟩) h, hcan⟩

/-- **C23**, protection of active requests (asynchronous and continuous services): in no run
is a request that is marked `ensure`, or has no label, ever stopped by pre-emption. -/
theorem C23_protected_not_stopped (kind : Kind) (hkind : kind ≠ .workflow) (par : Bool)
    (es : List Ev) (v : Svc) (hr : run (Svc.fresh kind par) es = some v) (o : Order) (ho : o ∈ stopped v) :
    ∃ i, o.instr = some i ∧ i.ensure = false := by
  have : ∀ (es : List Ev) (w w' : Svc), Inv none w → w.kind ≠ .workflow → w.cancels = [] →
      (∀ o ∈ stopped w, Open o) → run w es = some w' → ∀ o ∈ stopped w', Open o := by
    intro es
    induction es with
    | nil => intro w w' _ _ _ h hr; cases hr; exact h
    | cons e es ih =>
      intro w w' hi hk hc h hr
      simp only [run] at hr
      split at hr
      · cases hr
      · rename_i w1 hs
        obtain ⟨w1', hs', hi', _⟩ := step_inv hi e
        rw [hs] at hs'
        cases hs'
        have := stopped_step hi hk hs h hc
        exact ih w1 w' hi' (by rw [step_kind hs]; exact hk) this.2 this.1 hr
  exact this es _ v (fresh_inv _ _) hkind rfl (by simp [Svc.fresh, stopped]) hr o ho

example : ∃ v, run (Svc.fresh .async false)
    (busyRun ++ [.arrive 5 50 (some { label := 0, preempt := true })]) = some v ∧
    (stopped v).map (·.id) = [0] := ⟨_, rfl, rfl⟩

/-- **C23** fails for workflows: the stop of the active request is a cancellation of its
*parent session* (src/service/workflow.rs:213-218), which cancels every run of the workflow
for that session (src/operation/scope.rs:988-998). Here request 1 has another label and is
marked `ensure`; nevertheless the pre-empting request 2 with label 0 stops it. -/
theorem C23_workflow_violated : ∃ es v, run (Svc.fresh .workflow true) es = some v ∧
    (∀ o ∈ accepted v.log, ∀ i, o.instr = some i → i.preempt = true → i.label = 0) ∧
    ∃ t ∈ v.tasks, t.status = .stopping ∧
      t.order.instr = some { label := 1, ensure := true } := by
  refine ⟨[.arrive 1 10 (some { label := 0 }), .arrive 2 10 (some { label := 1, ensure := true }),
    .arrive 3 20 (some { label := 0, preempt := true }), .cancelNow], _, rfl, ?_, ?_⟩
  · intro o ho i hi hp
    have : accepted [Rec.accepted ⟨0, 1, 10, some { label := 0 }⟩,
        .started ⟨0, 1, 10, some { label := 0 }⟩,
        .accepted ⟨1, 2, 10, some { label := 1, ensure := true }⟩,
        .started ⟨1, 2, 10, some { label := 1, ensure := true }⟩,
        .accepted ⟨2, 3, 20, some { label := 0, preempt := true }⟩] =
      [⟨0, 1, 10, some { label := 0 }⟩, ⟨1, 2, 10, some { label := 1, ensure := true }⟩,
        ⟨2, 3, 20, some { label := 0, preempt := true }⟩] := rfl
    have ho' : o ∈ [(⟨0, 1, 10, some { label := 0 }⟩ : Order),
        ⟨1, 2, 10, some { label := 1, ensure := true }⟩,
        ⟨2, 3, 20, some { label := 0, preempt := true }⟩] := ho
    simp only [List.mem_cons, List.not_mem_nil, or_false] at ho'
    rcases ho' with rfl | rfl | rfl <;> cases hi <;> first | rfl | cases hp
  · exact ⟨_, List.mem_cons_of_mem _ (List.mem_cons_self ..), rfl, rfl⟩

/-! ### C24: every request is accounted for -/

/-- **C24**. At every moment of every run each accepted request is exactly one of: waiting,
active, ended (responded, stopped or cleaned up), discarded by pre-emption, removed by a
session cleanup, or skipped because its node lost its target – and it is so exactly once.
Nothing else is any of these. -/
theorem C24_accounting (kind : Kind) (par : Bool) (es : List Ev) (v : Svc)
    (hr : run (Svc.fresh kind par) es = some v) (o : Order) :
    (waiting v).count o + (active v).count o + (ended v.log).count o +
        (discarded v.log).count o + (removed v.log).count o + (skipped v.log).count o =
      if o ∈ accepted v.log then 1 else 0 := by
  have h := (run_parallel hr).1
  have h1 := h.acc o
  rw [lost_count] at h1
  have h2 : (accepted v.log).count o = if o ∈ accepted v.log then 1 else 0 := by
    split
    · rename_i hm
      have h3 := List.nodup_iff_count.mp h.accepted_nodup o
      have h4 := List.count_pos_iff.mpr hm
      omega
    · rename_i hm
      exact List.count_eq_zero.mpr hm
  omega

/-- **C24**, each request has its own task: the identifiers of the accepted requests are
pairwise different. -/
theorem C24_distinct (kind : Kind) (par : Bool) (es : List Ev) (v : Svc)
    (hr : run (Svc.fresh kind par) es = some v) : ((accepted v.log).map (·.id)).Nodup :=
  (run_parallel hr).1.ids

/-- **C24**, started means active or ended. -/
theorem C24_started (kind : Kind) (par : Bool) (es : List Ev) (v : Svc)
    (hr : run (Svc.fresh kind par) es = some v) (o : Order) :
    (started v.log).count o = (active v).count o + (ended v.log).count o :=
  (run_parallel hr).1.st o

example : ∃ v, run (Svc.fresh .async false) (busyRun ++
    [.arrive 5 50 (some { label := 0, preempt := true }), .cancelDone 0, .unblock,
     .cleanup 4 40, .sever 5, .finish 2, .unblock]) = some v ∧
    (ended v.log).map (·.id) = [0, 2] ∧ (discarded v.log).map (·.id) = [1] ∧
    (removed v.log).map (·.id) = [3] ∧ (skipped v.log).map (·.id) = [4] :=
  ⟨_, rfl, rfl, rfl, rfl, rfl⟩

/-! ### C58: the cleanup of one node -/

/-- **C58**, what does hold: the cleanup of a node for a session leaves the waiting requests
of all other sessions in place and in order, and the `delivering` entries as they are.
Asynchronous services and workflows: the tasks of all other nodes and sessions are
untouched. Continuous services: the active requests of all other sessions stay, in order.
What is missing: `C58_violated` and `C58_continuous_violated`. -/
theorem C58_cleanup_partial (v : Svc) (source session : Nat) :
    ∃ v', step v (.cleanup source session) = some v' ∧
      (∀ k, (v'.delivery.lane k).queue =
        (v.delivery.lane k).queue.filter fun o => decide (o.session ≠ session)) ∧
      (∀ k, (v'.delivery.lane k).delivering = (v.delivery.lane k).delivering) ∧
      (v.kind ≠ .continuous → v'.tasks.length = v.tasks.length ∧
        ∀ (i : Nat) (t : Task), v.tasks[i]? = some t →
          t.order.source ≠ source ∨ t.order.session ≠ session → v'.tasks[i]? = some t) ∧
      (v.kind = .continuous →
        v'.tasks = v.tasks.filter fun t => decide (t.order.session ≠ session)) := by
  have hq : ∀ k, ((v.delivery.cleanup session).lane k).queue =
      (v.delivery.lane k).queue.filter fun o => decide (o.session ≠ session) := by
    intro k
    simp only [Delivery.cleanup]
    apply List.filter_congr
    intro o _
    by_cases h : o.session = session <;> simp [h]
  have hidx : ∀ (i : Nat) (t : Task), v.tasks[i]? = some t →
      t.order.source ≠ source ∨ t.order.session ≠ session →
      (v.tasks.map fun t => if t.order.source = source ∧ t.order.session = session then
        { t with status := cleanStatus t.status } else t)[i]? = some t := by
    intro i t ht hne
    simp only [List.getElem?_map, ht, Option.map_some, Option.some.injEq]
    rw [if_neg]
    rintro ⟨h1, h2⟩
    rcases hne with h | h
    · exact h h1
    · exact h h2
  simp only [step, Svc.cleanTasks]
  split
  · rename_i hk
    exact ⟨_, rfl, hq, fun _ => rfl, fun _ => ⟨by simp, hidx⟩, fun h => by
      rw [show v.kind = .async from hk] at h; cases h⟩
  · rename_i hk
    exact ⟨_, rfl, hq, fun _ => rfl, fun _ => ⟨by simp, hidx⟩, fun h => by
      rw [show v.kind = .workflow from hk] at h; cases h⟩
  · rename_i hk
    refine ⟨_, rfl, hq, fun _ => rfl, fun h => absurd hk h, fun _ => ?_⟩
    apply List.filter_congr
    intro t _
    by_cases h : t.order.session = session <;> simp [h]

/-- **C58** fails: the queues are cleaned by session only (src/service/delivery.rs:192-194,
reached from src/operation/operate_service.rs:91-115), so the cleanup of node 1, for
example by a trim operation, silently removes the waiting request of node 2. -/
theorem C58_violated : ∃ es v v', run (Svc.fresh .async false) es = some v ∧
    step v (.cleanup 1 10) = some v' ∧ ∃ o ∈ waiting v, o.source = 2 ∧ o ∉ waiting v' ∧
      o ∈ removed v'.log :=
  ⟨[.arrive 3 30 none, .arrive 2 10 none], _, _, rfl, rfl, ⟨1, 2, 10, none⟩, by decide, rfl,
    by decide, by decide⟩

/-- **C58** fails for the active requests of a continuous service: the cleanup of node 1
removes the request of node 2 from the queue that the system sees, because the queue is
cleaned by session only (src/service/continuous.rs:528). The system will never answer it. -/
theorem C58_continuous_violated : ∃ es v v', run (Svc.fresh .continuous true) es = some v ∧
    step v (.cleanup 1 10) = some v' ∧ ∃ o ∈ active v, o.source = 2 ∧ o ∉ active v' :=
  ⟨[.arrive 2 10 none], _, _, rfl, rfl, ⟨0, 2, 10, none⟩, by decide, rfl, by decide⟩

end Verif.Delivery
