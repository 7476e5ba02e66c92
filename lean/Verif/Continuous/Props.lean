import Verif.Continuous.Runs

/-
Property theorems C26. `run (Cont.fresh parallel) es` is a continuous service after an
arbitrary sequence of events. In a calm run the responses of every system are delivered
before anything else happens to the service. The code does not make sure of that: the
responses are delivered by a command, and the flush of the workflows runs in the same
schedule without an ordering (src/lib.rs:362, src/service/service_builder.rs:176). The
witnesses at the end show what goes wrong in runs that are not calm.
-/
namespace Verif.Continuous

open Verif.Delivery

set_option linter.unusedVariables false

/-- C26: in calm runs no index is out of range when the responses are delivered. -/
theorem C26_never_panics_partial (par : Bool) (es : List Ev) (hc : Calm es) :
    ∃ s, run (Cont.fresh par) es = some s := by
  obtain ⟨s, h, _⟩ := (CInv.fresh par).run es hc
  exact ⟨s, h⟩

/-- C26: a system that makes any attempts to respond. Exactly the valid attempts count. Each
of their responses goes to the requester of the order that was visible at the index of the
attempt, in the order in which the system responded; a requester whose node has lost its
target gets nothing. The orders that were not answered stay in the queue in their order;
orders that were waiting for the answered ones are added behind them. -/
theorem C26_answers_partial (par : Bool) (es : List Ev) (s : Cont)
    (hr : run (Cont.fresh par) es = some s) (hc : Calm es) (attempts : List (Nat × Nat)) :
    ∃ (s' : Cont) (given : List (Order × Nat)) (new : List Order), step s (.frame attempts) = some s' ∧
      given.map some = (answers (visible s).length [] attempts).map
        (fun a => ((visible s)[a.1]?).map fun o => (o, a.2)) ∧
      s'.given = s.given ++ given.filter (fun g => decide (g.1.source ∉ s.svc.severed)) ∧
      visible s' = without (visible s)
        (fun i => decide (i ∈ (answers (visible s).length [] attempts).map (·.1))) ++ new ∧
      started s'.svc.log = started s.svc.log ++ new := by
  obtain ⟨s2, h, hinv⟩ := (CInv.fresh par).run es hc
  rw [hr] at h
  cases h
  obtain ⟨rs, s', new, h1, h2, _, _, h5, _, h7, h8, h9, h10, h11, _⟩ :=
    deliver_spec hinv.inv hinv.kind attempts
  have hstep : step s (.frame attempts) = some s' := by
    simp only [step]
    rw [show s.svc.tasks.map (·.order) = visible s from rfl, h1]
    split
    · rename_i he
      subst he
      rw [← h2]
      simp [deliver, sortDesc, retireAll]
    · exact h2
  refine ⟨s', rs.map (fun r => (r.order, r.data)), new, hstep, ?_, ?_, ?_, h11⟩
  · rw [← h7, List.map_map, List.map_map]
    apply List.map_congr_left
    intro r hr'
    simp only [Function.comp]
    rw [h8 r hr']
    rfl
  · rw [h9, List.filter_map]
    rfl
  · rw [h10, respondAll_index h7]

/-- C26: what is not a response leaves the visible orders where they are, and adds orders at
the end; only a request that pre-empts and a cleanup take orders out. -/
theorem C26_queue_partial (par : Bool) (es : List Ev) (s s' : Cont)
    (hr : run (Cont.fresh par) es = some s) (hc : Calm es) (e : Delivery.Ev)
    (he : ∀ id, e ≠ .finish id) (hs : step s (.base e) = some s') :
    s'.given = s.given ∧ ∃ kept new, visible s' = kept ++ new ∧
      started s'.svc.log = started s.svc.log ++ new ∧ KeptBy e (visible s) kept := by
  obtain ⟨s2, h, hinv⟩ := (CInv.fresh par).run es hc
  rw [hr] at h
  cases h
  have hs' : (Delivery.step s.svc e).map (fun v => { s with svc := v }) = some s' := by
    cases e with
    | finish id => exact absurd rfl (he id)
    | _ => exact hs
  obtain ⟨v', h1, rfl⟩ := Option.map_eq_some_iff.mp hs'
  exact ⟨rfl, (base_spec hinv.kind he h1).2⟩

/-- C26: in calm runs no order is given two responses, an order that was given a response
had been accepted, and it is not in the queue any more. -/
theorem C26_at_most_once_partial (par : Bool) (es : List Ev) (s : Cont)
    (hr : run (Cont.fresh par) es = some s) (hc : Calm es) :
    (s.given.map (·.1)).Nodup ∧
    ∀ g ∈ s.given, g.1 ∈ accepted s.svc.log ∧ g.1 ∉ visible s ∧ g.1 ∉ waiting s.svc := by
  obtain ⟨s2, h, hinv⟩ := (CInv.fresh par).run es hc
  rw [hr] at h
  cases h
  have hone : ∀ o, (accepted s.svc.log).count o ≤ 1 :=
    List.nodup_iff_count.mp hinv.inv.accepted_nodup
  constructor
  · rw [List.nodup_iff_count]
    intro o
    have h1 := hinv.once o
    have h2 := count_responded s.svc.log o
    have h3 := hinv.inv.acc o
    have h4 := hone o
    omega
  · intro g hg
    have hpos : 0 < (s.given.map (·.1)).count g.1 :=
      List.count_pos_iff.mpr (List.mem_map.mpr ⟨g, hg, rfl⟩)
    have h1 := hinv.once g.1
    have h2 := count_responded s.svc.log g.1
    have h3 := hinv.inv.acc g.1
    have h4 := hone g.1
    refine ⟨List.count_pos_iff.mp (by omega), ?_, ?_⟩
    · intro hm
      have : 0 < (active s.svc).count g.1 := List.count_pos_iff.mpr hm
      omega
    · intro hm
      have := List.count_pos_iff.mpr hm
      omega

/-- C26: in calm runs, whenever orders wait in a serial queue, an order of that queue is
visible, so the queue goes on when it is answered; the exception is C59, a queue whose
active order was cleaned up. -/
theorem C26_waiting_partial (par : Bool) (es : List Ev) (s : Cont)
    (hr : run (Cont.fresh par) es = some s) (hc : Calm es) (k : Option Nat)
    (hw : (s.svc.delivery.lane k).queue ≠ []) :
    ∃ d, queueOf s.svc.delivery.parallel d = some k ∧
      (d ∈ visible s ∨ Rec.cleaned d ∈ s.svc.log) := by
  obtain ⟨s2, h, hinv⟩ := (CInv.fresh par).run es hc
  rw [hr] at h
  cases h
  cases hd : (s.svc.delivery.lane k).delivering with
  | none => exact absurd (hinv.inv.idle k hd) hw
  | some d => exact ⟨d, hinv.inv.dkey k d hd, hinv.inv.cont hinv.kind k (by simp) d hd⟩

section Examples

/-- three requests of a continuous service, all visible -/
def three : List Ev :=
  [.base (.arrive 1 10 none), .base (.arrive 2 20 none), .base (.arrive 3 30 none)]

/-- The second and the first are answered, in that order, the second twice in vain. -/
example : ∃ s, run (Cont.fresh true) (three ++ [.frame [(1, 7), (5, 1), (1, 8), (0, 9)]]) = some s ∧
    s.given = [(⟨1, 2, 20, none⟩, 7), (⟨0, 1, 10, none⟩, 9)] ∧
    visible s = [⟨2, 3, 30, none⟩] ∧
    Calm (three ++ [.frame [(1, 7), (5, 1), (1, 8), (0, 9)]]) := by
  refine ⟨_, rfl, by decide, by decide, ?_⟩
  intro e he
  simp [three] at he
  rcases he with rfl | rfl | rfl | rfl <;> simp

/-- Serial: the next order becomes visible behind those that are left. -/
example : ∃ s, run (Cont.fresh false) (three ++ [.frame [(0, 9)]]) = some s ∧
    s.given = [(⟨0, 1, 10, none⟩, 9)] ∧ visible s = [⟨1, 2, 20, none⟩] := ⟨_, rfl, by decide⟩

end Examples

/-- C26 is violated in runs that are not calm: two systems that use the same continuous
service before the commands are applied both answer the same order, so its requester gets
two responses, and the order behind it is taken out of the queue without an answer. -/
theorem C26_two_systems_violated : ∃ es s, run (Cont.fresh true) es = some s ∧
    (∃ o, (s.given.map (·.1)).count o = 2) ∧
    (∃ o ∈ accepted s.svc.log, o ∉ s.given.map (·.1) ∧ o ∉ visible s ∧ o ∉ waiting s.svc ∧
      Rec.responded o ∈ s.svc.log) := by
  refine ⟨[.base (.arrive 1 10 none), .base (.arrive 2 20 none), .system [(0, 7)], .system [(0, 8)],
    .apply, .apply], _, rfl, ⟨⟨0, 1, 10, none⟩, by decide⟩, ⟨1, 2, 20, none⟩, by decide, by decide,
    by decide, by decide, by decide⟩

/-- C26 is violated in runs that are not calm: the session of the first order is cleaned up
between the response of the system to the second order and its delivery. The second order
gets its response but stays in the queue, and the third is taken out without one. -/
theorem C26_cleanup_violated : ∃ es s, run (Cont.fresh true) es = some s ∧
    (∃ g ∈ s.given, g.1 ∈ visible s) ∧
    (∃ o ∈ accepted s.svc.log, o ∉ s.given.map (·.1) ∧ o ∉ visible s ∧
      Rec.responded o ∈ s.svc.log) := by
  refine ⟨three ++ [.system [(1, 7)], .base (.cleanup 1 10), .apply], _, rfl,
    ⟨(⟨1, 2, 20, none⟩, 7), by decide, by decide⟩, ⟨2, 3, 30, none⟩, by decide, by decide,
    by decide, by decide⟩

/-- C26 is violated in runs that are not calm: the delivery of a response panics because the
order was taken out of the queue in the meantime. -/
theorem C26_panic_violated : ∃ es, run (Cont.fresh true) es = none :=
  ⟨[.base (.arrive 1 10 none), .system [(0, 7)], .base (.cleanup 1 10), .apply], rfl⟩

end Verif.Continuous
