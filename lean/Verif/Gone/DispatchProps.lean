import Verif.Gone.DispatchLemmas

/-
C92: requests are disposed of as undeliverable only if their service is gone.
-/
namespace Verif.Gone.Dispatch

section
variable (svc : Nat → Nat)

/-- Requests that are not dispatched inside of others, or only for the same service or for
services that stay, are disposed of as undeliverable only if their service was removed.
Missing: requests for a removed service that are dispatched inside of a request for another
service. -/
theorem C92_disposal_partial (es : List Ev) (ht : Tame svc es) (node session : Nat)
    (h : .unavailable node session ∈ (run svc es).log) :
    (run svc es).present (svc node) = false := by
  have key : ∀ (pre : List Ev) (d : D), (∀ e ∈ pre, e ∈ es) → d.queue = [] → d.delivering = false →
      Ok svc (Stays es) d → Ok svc (Stays es) (pre.foldl (step svc) d) := by
    intro pre
    induction pre with
    | nil => intro d _ _ _ h; exact h
    | cons e pre ih =>
      intro d hsub hq hd hok
      have hmem := hsub e (List.mem_cons_self ..)
      have hsub' : ∀ x ∈ pre, x ∈ es := fun x hx => hsub x (.tail _ hx)
      cases e with
      | arrive n s => exact ih _ hsub' hq hd (act_ok svc (a := .arrive n s) hok (by simp))
      | remove s =>
        refine ih _ hsub' hq hd (act_ok svc (a := .remove s) hok ?_)
        intro x hx hst
        cases hx
        exact hst _ hmem rfl
      | execute node scripts =>
        have hrun : step svc d (.execute node scripts) =
            loop svc (svc node) (fuelFor scripts d) scripts { d with
              queue := [⟨svc node, node⟩]
              delivering := true } := by
          simp [step, dispatch, hd, hq]
        have hi := loop_idle svc (svc node) (fuelFor scripts d) scripts { d with
            queue := [⟨svc node, node⟩]
            delivering := true } (by simp [fuelFor]; omega)
        refine ih _ hsub' (by rw [hrun]; exact hi.1) (by rw [hrun]; exact hi.2) ?_
        rw [hrun]
        refine loop_ok svc _ _ _ _ ⟨hok.absent, hok.stay⟩ ?_ ?_
        · intro p hp
          rw [List.mem_singleton.1 hp]
          exact .inl rfl
        · intro l hl
          refine ⟨fun s hs hst => hst _ hmem ⟨l, hl, hs⟩, fun n hn => ht node scripts hmem l hl n hn⟩
  exact (key es _ (fun _ h => h) rfl rfl ⟨by simp, fun _ _ => rfl⟩).absent node session h

/-- No request vanishes: it waits, or it was served, or it was disposed of, each once. This
holds for nested requests as well. -/
theorem C92_account (es : List Ev) (node session : Nat) :
    (run svc es).log.count (.arrived node session) =
      (run svc es).inputs.count (node, session) + (run svc es).log.count (.served node session) +
        (run svc es).log.count (.unavailable node session) :=
  run_counted svc es node session

/-- A node whose service is gone has no requests left once it is executed by the flush, and
each of them was disposed of. -/
theorem C92_told (es : List Ev) (node : Nat) (scripts : List (List Act))
    (hgone : (run svc es).present (svc node) = false) :
    (∀ s, (node, s) ∉ (run svc (es ++ [.execute node scripts])).inputs) ∧
    ∀ s, (node, s) ∈ (run svc es).inputs →
      .unavailable node s ∈ (run svc (es ++ [.execute node scripts])).log := by
  obtain ⟨hq, hd⟩ := run_idle svc es
  have hrun : run svc (es ++ [.execute node scripts]) =
      { disposeFor svc (svc node) (run svc es) with
        queue := []
        delivering := false } := by
    have : run svc (es ++ [.execute node scripts]) = dispatch svc node scripts (run svc es) := by
      simp [run, step, List.foldl_append]
    rw [this]
    simp only [dispatch, hd, Bool.false_eq_true, if_false, hq, List.nil_append]
    have hf : fuelFor scripts (run svc es) = ((scripts.map List.length).sum) + 1 + 1 := by
      simp [fuelFor, hq]
    rw [hf]
    unfold loop
    simp only [List.getLast?_singleton, hgone, Bool.false_eq_true, if_false, List.dropLast_singleton]
    unfold loop
    simp [disposeFor]
  rw [hrun]
  constructor
  · intro s hs
    simp [disposeFor] at hs
  · intro s hs
    simp only [disposeFor]
    refine List.mem_append.2 (.inr (List.mem_map.2 ⟨(node, s), List.mem_filter.2 ⟨hs, ?_⟩, rfl⟩))
    simp

end

/-- The service 1 of node 1 is run; it flushes, and in that flush node 2 is executed, whose
service 2 was removed. Then a request of node 1 is disposed of although service 1 is
there, and the request of node 2 is left where it is. -/
theorem C92_violated : ∃ es, .unavailable 1 11 ∈ (run id es).log ∧ (run id es).present 1 = true ∧
    (2, 20) ∈ (run id es).inputs ∧ (run id es).present 2 = false :=
  ⟨[.remove 2, .arrive 1 10, .arrive 1 11, .execute 1 [[.arrive 2 20, .execute 2]]], by decide⟩

theorem C92_full_violated : ¬ C92_Full := by
  intro h
  obtain ⟨es, h1, h2, _⟩ := C92_violated
  have h3 : (run id es).present 1 = false := h id es 1 11 h1
  rw [h2] at h3
  cases h3

/-- The hypotheses of `C92_disposal_partial` with nested requests and a removal. -/
example : Tame id [.arrive 1 10, .arrive 2 20, .execute 1 [[.execute 2]], .arrive 3 30, .remove 3,
    .execute 3 []] ∧
    .unavailable 3 30 ∈ (run id [.arrive 1 10, .arrive 2 20, .execute 1 [[.execute 2]],
      .arrive 3 30, .remove 3, .execute 3 []]).log := by
  refine ⟨?_, by decide⟩
  intro node scripts hm l hl n hn
  simp only [List.mem_cons, Ev.execute.injEq, reduceCtorEq, List.not_mem_nil, false_or, or_false]
    at hm
  rcases hm with ⟨rfl, rfl⟩ | ⟨rfl, rfl⟩
  · right
    simp at hl
    subst hl
    simp at hn
    subst hn
    intro e he
    simp at he
    rcases he with rfl | rfl | rfl | rfl | rfl | rfl <;> simp [Ev.removes]
  · cases hl

end Verif.Gone.Dispatch
