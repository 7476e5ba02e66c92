import Verif.Flow.Back

/-
Property theorems C78, C79 and C80. The notions they are stated in are in Spec.lean; what one
event does is in Model.lean.
-/
namespace Verif.Flow

open Graph (Live)

/-! ### C78 -/

/-- The full statement of C78: a session in which nothing is left to do has ended. -/
def C78_full : Prop :=
  ∀ net, Wired net → ∀ es, Quiescent (run net (start net) es) →
    (run net (start net) es).status ≠ .active

/-- A session in which nothing is left to do never changes again, so if it has not ended the one
who asked waits for ever. -/
theorem C78_rest_is_final (net : Net) (s : State) (h : Quiescent s) (es : List Ev) :
    run net s es = s := by
  have noKey : ∀ n b, hasKey net s n b = false := by
    intro n b
    unfold hasKey
    split
    · simp [h.2.2.1 n]
    · rfl
  induction es with
  | nil => rfl
  | cons e es ih =>
    have hs : step net s e = s := by
      by_cases ha : s.status = .active
      · unfold step
        rw [if_neg (show ¬ s.status ≠ .active from fun h => h ha)]
        cases e with
        | exec n c =>
          simp only
          split
          · rfl
          · rw [if_pos (h.1 n)]
        | item n i =>
          simp only
          split
          · rw [if_pos (h.2.1 n)]
          · rw [if_pos (h.2.1 n)]
          · rfl
        | finish n =>
          simp only
          split
          · rw [if_pos (h.2.1 n)]
          · rw [if_pos (h.2.1 n)]
          · rfl
        | lose n =>
          simp only
          split
          · rw [if_pos (h.2.1 n)]
          · rfl
        | innerCancel n =>
          simp only
          split
          · rw [if_pos (h.2.1 n)]
          · rfl
        | touch n b sub add loops =>
          simp only
          split
          · rw [if_neg (by rw [noKey]; simp)]
          · rfl
        | turn n b opens loops =>
          simp only
          rw [if_neg (by rw [noKey]; simp)]
        | release n =>
          simp only
          rw [if_pos (h.2.2.1 n)]
        | letGo n =>
          simp only
          rw [if_pos (h.2.2.1 n)]
        | gone n =>
          simp only
          rw [if_pos (h.2.2.2.1 n)]
        | check =>
          simp only
          rw [if_pos h.2.2.2.2]
      · exact step_ended e ha
    show run net (step net s e) es = s
    rw [hs]
    exact ih

/-- **C78**, for workflows in which buffers can hold a value, joins pull from buffers of their
own that have no gates, accesses are for single buffers and inner scopes have no streams, and for
runs in which inner sessions are not cancelled, keys are not dropped unseen and joined buffers get
their values one at a time: whatever the operations do with their messages and the keys, and in
whatever order things happen, once nothing is left to do the session has terminated or has been
cancelled. Missing: each of these conditions is needed, see the theorems in Witness.lean; gates
whose action comes with the message, collect and trim are not part of this model. -/
theorem C78_no_hang_partial (net : Net) (hw : Wired net) (hp : Private net) (es : List Ev)
    (he : ∀ e, e ∈ es → Calm net e) (hq : Quiescent (run net (start net) es)) :
    (run net (start net) es).status ≠ .active := by
  intro ha
  have hg := run_going hw hp es he (s := start net) (start_going hw) ha
  rcases hg.live with h | h
  · have := hq.2.2.2.2
    omega
  · exact hq.dead hp hg.notified _ h

/-! ### C79 -/

/-- The full statement of C79: a session is not cancelled for lack of reachability, neither when
it begins nor later, if its terminal would have been reached by some continuation. -/
def C79_full : Prop :=
  ∀ net, Wired net →
    ((start net).status = .cancelled → ∀ es, (run net (received net) es).status ≠ .terminated) ∧
    ∀ es₀, (run net (start net) es₀).status = .active →
      (step net (run net (start net) es₀) .check).status = .cancelled →
      ∀ es, (run net (run net (start net) es₀) es).status ≠ .terminated

/-- **C79**, for workflows without a cycle that leads to a join of several buffers, in which gate
operations only close, and not the buffers of joins. Any state is allowed, any number of joins
on the same buffer, and anything that keys allow, also opening and closing. Missing: each of
these conditions is needed, see the theorems in Witness.lean. -/
theorem C79_no_early_cancel_partial (net : Net) (hw : Wired net) (hl : NoLoopIntoJoin net)
    (hcl : GatesOnlyClose net) (hu : JoinsUngated net) (s : State) (hopen : JoinsOpen net s)
    (ha : s.status = .active) (hc : (step net s .check).status = .cancelled)
    (es : List Ev) : (run net s es).status ≠ .terminated := by
  refine dead_run hw hcl hu es hopen ?_ (by rw [ha]; simp)
  unfold step at hc
  rw [if_neg (show ¬ s.status ≠ .active from fun h => h ha)] at hc
  simp only at hc
  by_cases h0 : s.checks = 0
  · rw [if_pos h0, ha] at hc
    cases hc
  · rw [if_neg h0] at hc
    let s1 : State := { s with checks := s.checks - 1 }
    have hworld : world net s1 = world net s := world_congr rfl rfl rfl rfl rfl rfl rfl
    refine exact_check hw hcl hl s ?_
    rw [← hworld]
    have hc : (validate net s1).status = .cancelled := hc
    unfold validate at hc
    split at hc
    · exact absurd (hc.symm.trans ha) (by simp)
    · assumption
    · exact absurd (hc.symm.trans ha) (by simp)

theorem received_open {net : Net} : JoinsOpen net (received net) := fun b _ =>
  congrFun (give_gates net blank net.entry) b

/-- **C79** for the check that is made when a session begins: a workflow that is cancelled
because its terminal cannot be reached would not have terminated. -/
theorem C79_start_partial (net : Net) (hw : Wired net) (hl : NoLoopIntoJoin net)
    (hcl : GatesOnlyClose net) (hu : JoinsUngated net)
    (hc : (start net).status = .cancelled) (es : List Ev) :
    (run net (received net) es).status ≠ .terminated := by
  have hg := give_given (net := net) blank hw.entry
  have ha : (received net).status = .active := hg.status
  refine dead_run hw hcl hu es received_open ?_ (by rw [ha]; simp)
  refine exact_check hw hcl hl _ ?_
  unfold start validate at hc
  split at hc
  · exact absurd (hc.symm.trans ha) (by simp)
  · assumption
  · exact absurd (hc.symm.trans ha) (by simp)

/-- **C79** for the checks during a session, whatever has happened since it began. -/
theorem C79_session_partial (net : Net) (hw : Wired net) (hl : NoLoopIntoJoin net)
    (hcl : GatesOnlyClose net) (hu : JoinsUngated net) (before : List Ev)
    (ha : (run net (start net) before).status = .active)
    (hc : (step net (run net (start net) before) .check).status = .cancelled)
    (es : List Ev) : (run net (run net (start net) before) es).status ≠ .terminated := by
  have key : ∀ (es : List Ev) (s : State), JoinsOpen net s → JoinsOpen net (run net s es) := by
    intro es
    induction es with
    | nil => exact fun _ h => h
    | cons e es ih => exact fun s h => ih _ (h.step hw hu e)
  have h0 : JoinsOpen net (start net) := by
    unfold start validate
    split <;> exact received_open
  exact C79_no_early_cancel_partial net hw hl hcl hu _ (key before _ h0) ha hc es

/-! ### C80 -/

/-- The full statement of C80: when an inner session is cancelled the session around it has
ended or the scope around it will look for its terminal. -/
def C80_full : Prop :=
  ∀ net (s : State) n t ss, Wired net → s.status = .active →
    net.ops.lookup n = some (.scope t ss) → s.tasks n ≠ 0 →
    (step net s (.innerCancel n)).status ≠ .active ∨ 0 < (step net s (.innerCancel n)).checks

/-- **C80** for requests from outside: the cancellation of the workflow reaches the session of
the request, whatever other entities there are. -/
theorem C80_request_partial (ents : List (Nat × Ent)) (node session : Nat)
    (h1 : ents.lookup node = some finishCleanup) (h2 : ents.lookup session = some requestSession) :
    emitCancel ents node session = some session := by
  simp [emitCancel, h1, h2, finishCleanup, requestSession]

/-- **C80** is false of every scope inside a workflow: the cancellation of its session reaches
nobody. -/
theorem C80_inner_violated (ents : List (Nat × Ent)) (node session : Nat)
    (h1 : ents.lookup node = some finishCleanup) (h2 : ents.lookup session = some innerSession) :
    emitCancel ents node session = none := by
  simp [emitCancel, h1, h2, finishCleanup, innerSession]

/-- **C80** is false of every workflow: if the cancelled inner session was the last thing that
the session waited for, the session neither ends nor looks for its terminal, whatever happens
afterwards. -/
theorem C80_hang_violated (net : Net) (s : State) (n t : Nat) (ss : List Nat)
    (ha : s.status = .active) (hk : net.ops.lookup n = some (.scope t ss)) (h1 : s.tasks n = 1)
    (hp : ∀ m, s.pending m = 0) (ht : ∀ m, m ≠ n → s.tasks m = 0) (hkeys : ∀ m, s.keys m = 0)
    (hdrop : ∀ m, s.dropping m = 0) (hc : s.checks = 0)
    (es : List Ev) : (run net s (.innerCancel n :: es)).status = .active := by
  have hs : step net s (.innerCancel n) =
      { s with tasks := drop s.tasks n, failures := s.failures + 1 } := by
    unfold step
    rw [if_neg (show ¬ s.status ≠ .active from fun h => h ha)]
    simp only [hk]
    rw [if_neg (by omega)]
    rfl
  show (run net (step net s (.innerCancel n)) es).status = .active
  have hq : Quiescent (step net s (.innerCancel n)) := by
    rw [hs]
    refine ⟨hp, fun m => ?_, hkeys, hdrop, hc⟩
    show drop s.tasks n m = 0
    by_cases hm : m = n
    · rw [hm, drop_self]; omega
    · rw [drop_ne _ hm]; exact ht m hm
  rw [C78_rest_is_final net _ hq es, hs]
  exact ha

end Verif.Flow
