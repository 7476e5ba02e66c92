import Verif.Gone.Removed

/-
C91: what becomes of the requests of a service that is removed.
-/
namespace Verif.Gone

open Verif.Delivery (Svc Kind)

/-- Every run is free of panics. -/
theorem C91_never_panics (place : Nat → Place) (blocking : Bool) (kind : Kind) (parallel : Bool)
    (es : List Ev) : ∃ w, run (W.fresh place blocking kind parallel) es = some w := by
  obtain ⟨w, h, _⟩ := run_inv es (fresh_inv place blocking kind parallel)
  exact ⟨w, h⟩

/-- The full claim: a request made in a workflow or a series to a service that is removed is
answered, withdrawn, or its maker is told that the service is unavailable. It does not
hold, see the theorems named `violated`. -/
def C91_Full : Prop :=
  ∀ (place : Nat → Place) (blocking : Bool) (kind : Kind) (parallel : Bool) (es1 es2 : List Ev)
    (w : W) (r : Req), run (W.fresh place blocking kind parallel) (es1 ++ .remove :: es2) = some w →
    Rest w → arrivals w r = answers w r + withdrawn w r + told w r

/-- Split a run at the removal. -/
theorem at_removal {place : Nat → Place} {blocking : Bool} {kind : Kind} {parallel : Bool}
    {es1 es2 : List Ev} {w : W} (h1 : .remove ∉ es1)
    (hr : run (W.fresh place blocking kind parallel) (es1 ++ .remove :: es2) = some w) :
    ∃ w1, run (W.fresh place blocking kind parallel) es1 = some w1 ∧ Inv w1 ∧ w1.present = true ∧
      w1.place = place ∧ run w1.remove es2 = some w := by
  rw [run_append, Option.bind_eq_some_iff] at hr
  obtain ⟨w1, ha, hb⟩ := hr
  obtain ⟨k1, k2, _, _⟩ := run_kept es1 (w := W.fresh place blocking kind parallel) rfl h1 ha
  exact ⟨w1, ha, inv_of_run (fresh_inv _ _ _ _) ha, k1, k2, hb⟩

/-- The exact account at rest: what was made in a workflow was answered, withdrawn or told to
be undeliverable, except for the requests that the service held when it was removed.
Nobody is told about those. -/
theorem C91_account (place : Nat → Place) (blocking : Bool) (kind : Kind) (parallel : Bool)
    (es1 es2 : List Ev) (w1 w : W) (h1 : .remove ∉ es1)
    (hr1 : run (W.fresh place blocking kind parallel) es1 = some w1)
    (hr : run (W.fresh place blocking kind parallel) (es1 ++ .remove :: es2) = some w)
    (hrest : Rest w) (r : Req) (hw : place r.node = .workflow) :
    arrivals w r = answers w r + withdrawn w r + told w r + heldReqs w1 r := by
  obtain ⟨w1', ha, hi, hp, hpl, hb⟩ := at_removal h1 hr
  rw [hr1] at ha
  cases ha
  have hs := run_same es2 (remove_absent w1) hb
  have hinv := inv_of_run (remove_inv hi) hb
  have hplace : w.place = place := by
    rw [hs.2.1, ← hpl]
    unfold W.remove
    split <;> rfl
  have hdrop := (hs.2.2.2.1 r).trans (remove_dropped hi hp r)
  have hf := hinv.front r
  have hg := (hinv.gone hs.1).1 r
  have hig := (hinv.emitted r).2 (by rw [hplace]; exact hw)
  have he := ended_req r w.svc.log
  have hact : ofReq r (Verif.Delivery.active w.svc) = 0 := by
    simp [Verif.Delivery.active, hrest.2]
  rw [hrest.1, List.count_nil] at hf
  unfold arrivals answers withdrawn told
  omega

/-- Requests in a workflow, nothing held by the service when it is removed: all of them are
answered, withdrawn or told. Missing: requests that wait in the queue of the service or
are carried out by a continuous service or a workflow when it is removed, and requests in
a series. -/
theorem C91_told_partial (place : Nat → Place) (blocking : Bool) (kind : Kind) (parallel : Bool)
    (es1 es2 : List Ev) (w1 w : W) (h1 : .remove ∉ es1)
    (hr1 : run (W.fresh place blocking kind parallel) es1 = some w1)
    (hr : run (W.fresh place blocking kind parallel) (es1 ++ .remove :: es2) = some w)
    (hrest : Rest w) (r : Req) (hw : place r.node = .workflow) (hheld : heldReqs w1 r = 0) :
    arrivals w r = answers w r + withdrawn w r + told w r := by
  have := C91_account place blocking kind parallel es1 es2 w1 w h1 hr1 hr hrest r hw
  omega

/-- For a blocking service nothing is ever held: the claim holds for all requests made in
workflows. -/
theorem C91_blocking (place : Nat → Place) (kind : Kind) (parallel : Bool)
    (es1 es2 : List Ev) (w : W) (h1 : .remove ∉ es1)
    (hr : run (W.fresh place true kind parallel) (es1 ++ .remove :: es2) = some w)
    (hrest : Rest w) (r : Req) (hw : place r.node = .workflow) :
    arrivals w r = answers w r + withdrawn w r + told w r := by
  obtain ⟨w1, ha, _, _, _, _⟩ := at_removal h1 hr
  refine C91_told_partial place true kind parallel es1 es2 w1 w h1 ha hr hrest r hw ?_
  have := (run_kept es1 (w := W.fresh place true kind parallel) rfl h1 ha).2.2.1
  unfold heldReqs
  rw [this]
  rfl

/-- Nothing is started after the removal. -/
theorem C91_nothing_starts (place : Nat → Place) (blocking : Bool) (kind : Kind) (parallel : Bool)
    (es1 es2 : List Ev) (w1 w : W) (h1 : .remove ∉ es1)
    (hr1 : run (W.fresh place blocking kind parallel) es1 = some w1)
    (hr : run (W.fresh place blocking kind parallel) (es1 ++ .remove :: es2) = some w) :
    Verif.Delivery.started w.svc.log = Verif.Delivery.started w1.svc.log := by
  obtain ⟨w1', ha, hi, hp, hpl, hb⟩ := at_removal h1 hr
  rw [hr1] at ha
  cases ha
  rw [(run_same es2 (remove_absent w1) hb).2.2.2.2]
  unfold W.remove
  rw [if_pos hp]
  cases w1.blocking <;> rfl

/-- A request that waits in front of the removed service does not need to be executed to be
disposed of: if a flush has seen the service before it was removed, then the next flush
takes out everything that waits. -/
theorem C91_flush_disposes (place : Nat → Place) (blocking : Bool) (kind : Kind) (parallel : Bool)
    (es1 es2 es3 : List Ev) (w : W) (h1 : .remove ∉ es1) (h2 : .remove ∉ es2) (h3 : .collect ∉ es3)
    (hr : run (W.fresh place blocking kind parallel)
      (es1 ++ .collect :: es2 ++ .remove :: es3 ++ [.collect]) = some w) : w.inputs = [] := by
  rw [run_append, Option.bind_eq_some_iff] at hr
  obtain ⟨w3, hr, hc⟩ := hr
  rw [run_append, Option.bind_eq_some_iff] at hr
  obtain ⟨w2, hr, h23⟩ := hr
  rw [run_append, Option.bind_eq_some_iff] at hr
  obtain ⟨w1, hr, h12⟩ := hr
  have k1 := run_kept es1 (w := W.fresh place blocking kind parallel) rfl h1 hr
  have h12' : run w1.collect es2 = some w2 := h12
  have hp : w1.collect.present = true ∧ w1.collect.tracked = true := by
    unfold W.collect
    dsimp only
    split <;> simp [W.disposeAll, k1.1]
  have k2 := run_kept es2 hp.1 h2 h12'
  have h23' : run w2.remove es3 = some w3 := h23
  have hsig : w2.remove.signals ≠ 0 := by
    unfold W.remove
    rw [if_pos k2.1]
    simp [k2.2.2.2 hp.2]
  have hs3 := run_signal es3 (remove_absent w2) h3 h23'
  have : w = w3.collect := by
    simp only [run, step, Option.some.injEq] at hc
    exact hc.symm
  subst this
  unfold W.collect
  dsimp only
  rw [if_neg (by rw [hs3]; exact hsig)]
  rfl

/-- If no flush has seen the service, then the execution of any of its nodes does it. -/
theorem C91_execution_disposes (place : Nat → Place) (blocking : Bool) (kind : Kind)
    (parallel : Bool) (es1 es2 : List Ev) (node : Nat) (w : W)
    (hr : run (W.fresh place blocking kind parallel)
      (es1 ++ .remove :: es2 ++ [.execute node]) = some w) : w.inputs = [] := by
  rw [run_append, Option.bind_eq_some_iff] at hr
  obtain ⟨w2, hr, hc⟩ := hr
  rw [run_append, Option.bind_eq_some_iff] at hr
  obtain ⟨w1, hr, h12⟩ := hr
  have h12' : run w1.remove es2 = some w2 := h12
  have hs := run_same es2 (remove_absent w1) h12'
  simp only [run, step, W.execute, hs.1, Bool.false_eq_true, if_false, Option.some.injEq] at hc
  subst hc
  rfl

/-- In a series nobody is ever told. -/
theorem C91_series_never_told (place : Nat → Place) (blocking : Bool) (kind : Kind)
    (parallel : Bool) (es : List Ev) (w : W)
    (hr : run (W.fresh place blocking kind parallel) es = some w) (r : Req)
    (hs : place r.node = .series) : told w r = 0 :=
  ((inv_of_run (fresh_inv _ _ _ _) hr).emitted r).1 (by rw [run_place es hr]; exact hs)

/-! ### Examples and violations -/

/-- An asynchronous service: one request is being carried out, one lies in front of its node;
the first is answered, the second is told. -/
example : ∃ w, run (W.fresh (fun _ => .workflow) false .async false)
    ([.collect, .arrive ⟨1, 5, none⟩, .execute 1, .arrive ⟨2, 6, none⟩] ++ .remove ::
      [.collect, .inner (.finish 0), .inner .unblock]) = some w ∧ Rest w ∧
    answers w ⟨1, 5, none⟩ = 1 ∧ told w ⟨2, 6, none⟩ = 1 :=
  ⟨_, rfl, by unfold Rest; decide, by decide, by decide⟩

example : ∃ w1, run (W.fresh (fun _ => .workflow) false .async false)
    [.collect, .arrive ⟨1, 5, none⟩, .execute 1, .arrive ⟨2, 6, none⟩] = some w1 ∧
    heldReqs w1 ⟨2, 6, none⟩ = 0 := ⟨_, rfl, by decide⟩

/-- A serial asynchronous service: the request that waits for the first one is lost. -/
theorem C91_queued_violated : ∃ es1 es2 w, run (W.fresh (fun _ => .workflow) false .async false)
      (es1 ++ .remove :: es2) = some w ∧ Rest w ∧
    arrivals w ⟨2, 6, none⟩ = 1 ∧ answers w ⟨2, 6, none⟩ = 0 ∧ withdrawn w ⟨2, 6, none⟩ = 0 ∧
    told w ⟨2, 6, none⟩ = 0 :=
  ⟨[.collect, .arrive ⟨1, 5, none⟩, .execute 1, .arrive ⟨2, 6, none⟩, .execute 2],
    [.collect, .inner (.finish 0), .inner .unblock, .collect], _, rfl, by unfold Rest; decide,
    by decide, by decide, by decide, by decide⟩

/-- A workflow: the request that it is carrying out is lost with its scope. -/
theorem C91_workflow_violated : ∃ es1 es2 w, run (W.fresh (fun _ => .workflow) false .workflow true)
      (es1 ++ .remove :: es2) = some w ∧ Rest w ∧
    arrivals w ⟨1, 5, none⟩ = 1 ∧ answers w ⟨1, 5, none⟩ = 0 ∧ withdrawn w ⟨1, 5, none⟩ = 0 ∧
    told w ⟨1, 5, none⟩ = 0 :=
  ⟨[.collect, .arrive ⟨1, 5, none⟩, .execute 1], [.collect, .inner (.finish 0), .collect], _, rfl,
    by unfold Rest; decide, by decide, by decide, by decide, by decide⟩

/-- A continuous service: the request in its queue is lost. -/
theorem C91_continuous_violated : ∃ es1 es2 w,
    run (W.fresh (fun _ => .workflow) false .continuous true) (es1 ++ .remove :: es2) = some w ∧
    Rest w ∧ arrivals w ⟨1, 5, none⟩ = 1 ∧ answers w ⟨1, 5, none⟩ = 0 ∧
    withdrawn w ⟨1, 5, none⟩ = 0 ∧ told w ⟨1, 5, none⟩ = 0 :=
  ⟨[.collect, .arrive ⟨1, 5, none⟩, .execute 1], [.collect, .inner (.finish 0), .collect], _, rfl,
    by unfold Rest; decide, by decide, by decide, by decide, by decide⟩

/-- A series: the request to a blocking service that is gone is dropped. -/
theorem C91_series_violated : ∃ es1 es2 w, run (W.fresh (fun _ => .series) true .async true)
      (es1 ++ .remove :: es2) = some w ∧ Rest w ∧
    arrivals w ⟨1, 1, none⟩ = 1 ∧ answers w ⟨1, 1, none⟩ = 0 ∧ withdrawn w ⟨1, 1, none⟩ = 0 ∧
    told w ⟨1, 1, none⟩ = 0 :=
  ⟨[.collect], [.arrive ⟨1, 1, none⟩, .execute 1, .collect], _, rfl,
    by unfold Rest; decide, by decide, by decide, by decide, by decide⟩

theorem C91_full_violated : ¬ C91_Full := by
  intro h
  obtain ⟨es1, es2, w, hr, hrest, h1, h2, h3, h4⟩ := C91_queued_violated
  have := h _ _ _ _ es1 es2 w ⟨2, 6, none⟩ hr hrest
  omega

/-- The hypotheses of `C91_flush_disposes`, with something that waits. -/
example : ∃ w, run (W.fresh (fun _ => .workflow) true .async true)
    ([] ++ .collect :: [.arrive ⟨1, 5, none⟩] ++ .remove :: [.arrive ⟨2, 5, none⟩] ++ [.collect]) =
      some w ∧ told w ⟨1, 5, none⟩ = 1 ∧ told w ⟨2, 5, none⟩ = 1 :=
  ⟨_, rfl, by decide, by decide⟩

/-- Without a flush before the removal the next one does not notice. -/
example : ∃ w, run (W.fresh (fun _ => .workflow) true .async true)
    [.arrive ⟨1, 5, none⟩, .remove, .collect] = some w ∧ w.inputs = [⟨1, 5, none⟩] :=
  ⟨_, rfl, by decide⟩

end Verif.Gone
