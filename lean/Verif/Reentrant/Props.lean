import Verif.Reentrant.Lemmas

/-
Property theorems C25 (callbacks) and C50 (services), for every tree of requests that cause
further requests while they are served.
-/
namespace Verif.Reentrant

/-! ### C25 -/

/-- C25 holds for requests of depth one: if the requests that are caused while the callback
runs do not cause further ones, then all of them are served, in the order in which they
arrived, each exactly once, and the callback is available again. -/
theorem C25_one_level_partial (t : Tree Nat) (ht : t.Shallow) (log : List Nat) (fuel : Nat)
    (hf : t.kids.length + 5 < fuel) :
    execute fuel { log } t = .ok { log := log ++ t.root :: t.kids.map Tree.root } := by
  obtain ⟨r, kids⟩ := t
  simp only [Tree.kids] at hf
  match fuel, hf with
  | fuel + 2, hf =>
    simp only [execute, Bool.false_eq_true, if_false, if_true, call]
    rw [executeAll_busy kids fuel _ (by omega) rfl rfl]
    simp only [List.nil_append]
    rw [emptyQueue_leaves kids (fuel + 1) _ (by omega) rfl rfl ht]
    simp [Tree.root, Tree.kids]

/-- C25 for a sequence of requests, each of depth one: all are served in order. -/
theorem C25_sequence_partial (ts : List (Tree Nat)) (ht : ∀ t ∈ ts, t.Shallow) (fuel : Nat)
    (hf : ∀ t ∈ ts, t.kids.length + 5 < fuel) : ∀ (log : List Nat),
    executeList fuel { log } ts =
      .ok { log := log ++ ts.flatMap fun t => t.root :: t.kids.map Tree.root } := by
  induction ts with
  | nil => intro log; simp [executeList]
  | cons t ts ih =>
    intro log
    simp only [executeList]
    rw [C25_one_level_partial t (ht t (List.mem_cons_self ..)) log fuel
      (hf t (List.mem_cons_self ..))]
    dsimp only
    rw [ih (fun t' h => ht t' (List.mem_cons_of_mem _ h))
      (fun t' h => hf t' (List.mem_cons_of_mem _ h))]
    simp

/-- C25 fails for every deeper tree of requests: a request that was queued is served while
the mutex of the callback is held (src/operation/operate_callback.rs:99-107), so if it
causes another request of the same callback, the thread locks a mutex that it holds. -/
theorem C25_violated (t : Tree Nat) (ht : ¬ t.Shallow) (log : List Nat) (fuel : Nat)
    (hf : t.kids.length + 6 < fuel) : execute fuel { log } t = .error .deadlock := by
  obtain ⟨r, kids⟩ := t
  simp only [Tree.kids] at hf
  have hk : ∃ k ∈ kids, k.kids ≠ [] := by
    by_cases h : ∃ k ∈ kids, k.kids ≠ []
    · exact h
    · refine absurd ?_ ht
      intro k hk
      by_cases he : k.kids = []
      · exact he
      · exact absurd ⟨k, hk, he⟩ h
  match fuel, hf with
  | fuel + 2, hf =>
    simp only [execute, Bool.false_eq_true, if_false, if_true, call]
    rw [executeAll_busy kids fuel _ (by omega) rfl rfl]
    simp only [List.nil_append]
    exact emptyQueue_deadlock kids (fuel + 1) _ (by omega) rfl rfl hk

/-- Three requests, the second and the third caused by the first. -/
example : (Tree.node 1 [.node 2 [], .node 3 []]).Shallow ∧
    execute 20 {} (.node 1 [.node 2 [], .node 3 []]) = .ok { log := [1, 2, 3] } := by
  refine ⟨?_, by simp [execute, call, executeAll, emptyQueue]⟩
  intro k hk
  simp only [Tree.kids, List.mem_cons, List.not_mem_nil, or_false] at hk
  rcases hk with rfl | rfl <;> rfl

/-- A request that causes a request that causes a request. -/
example : ¬ (Tree.node 1 [.node 2 [.node 3 []]]).Shallow ∧
    execute 20 {} (.node 1 [.node 2 [.node 3 []]]) = .error .deadlock := by
  refine ⟨?_, by simp [execute, call, executeAll, emptyQueue]⟩
  intro h
  have := h (.node 2 [.node 3 []]) (by simp [Tree.kids])
  simp [Tree.kids] at this

/-! ### C50 -/

/-- C50: a request is dispatched while nothing else is, and its service and those of all
requests that it causes, directly or indirectly, are available. When `dispatch_service`
returns, each of these requests was served, exactly once; no service was entered while it
was running; nothing is left in the queue; and of the inputs, those of other requests are
left. -/
theorem C50_all_dispatched_partial (s : Disp) (hs : Idle s) (t : Tree Req) (others : List Req)
    (hin : s.inputs.Perm (others ++ [t.root])) (hav : ∀ r ∈ t.all, r.provider ∉ s.missing) :
    ∃ bound, ∀ fuel ≥ bound, ∃ s' new, dispatch fuel s t = .ok s' ∧ Idle s' ∧
      s'.log = s.log ++ new ∧ (new.Perm (t.all.map Rec.served)) ∧ s'.inputs.Perm others := by
  refine ⟨t.size + 6, ?_⟩
  intro fuel hf
  obtain ⟨hd, hq, htk⟩ := hs
  obtain ⟨r, kids⟩ := t
  match fuel, hf with
  | fuel + 1, hf =>
    simp only [dispatch, hd, Bool.false_eq_true, if_false, hq, List.nil_append]
    obtain ⟨inputs, h1, h2⟩ := deliverAll_spec r.provider fuel
      { s with queue := [.node r kids], delivering := true } others
      (by simp only [Tree.sizeList]; omega) rfl htk (by simpa using hin)
      (by simpa [Tree.allList] using hav)
    refine ⟨_, _, h1, ⟨rfl, rfl, htk⟩, rfl, ?_, h2⟩
    simp only [Tree.revList, List.nil_append]
    exact (Tree.rev_perm _).map _

/-- C50, the order: the requests that a request causes are dispatched after it, the last
one first, each followed by all that it causes in turn (`push_back` and `pop_back`,
src/service/internal.rs:222 and 232). -/
theorem C50_order (s : Disp) (hs : Idle s) (t : Tree Req) (others : List Req)
    (hin : s.inputs.Perm (others ++ [t.root])) (hav : ∀ r ∈ t.all, r.provider ∉ s.missing) :
    ∃ bound, ∀ fuel ≥ bound, ∃ s', dispatch fuel s t = .ok s' ∧
      served s'.log = served s.log ++ t.rev := by
  refine ⟨t.size + 6, ?_⟩
  intro fuel hf
  obtain ⟨hd, hq, htk⟩ := hs
  obtain ⟨r, kids⟩ := t
  match fuel, hf with
  | fuel + 1, hf =>
    simp only [dispatch, hd, Bool.false_eq_true, if_false, hq, List.nil_append]
    obtain ⟨inputs, h1, h2⟩ := deliverAll_spec r.provider fuel
      { s with queue := [.node r kids], delivering := true } others
      (by simp only [Tree.sizeList]; omega) rfl htk (by simpa using hin)
      (by simpa [Tree.allList] using hav)
    refine ⟨_, h1, ?_⟩
    simp [served, Tree.revList, List.filterMap_map, Function.comp_def]

/-- C50, the service of the first request is not available: its input and all other inputs
for that service are disposed of, and nothing else changes. -/
theorem C50_unavailable (s : Disp) (hs : Idle s) (r : Req) (kids : List (Tree Req))
    (hav : r.provider ∈ s.missing) (fuel : Nat) :
    dispatch (fuel + 3) s (.node r kids) = .ok { s with
      inputs := s.inputs.filter (fun x => decide (x.provider ≠ r.provider))
      log := s.log ++ (s.inputs.filter (fun x => decide (x.provider = r.provider))).map
        .disposed } := by
  obtain ⟨hd, hq, htk⟩ := hs
  obtain ⟨d, q, i, m, tk, l⟩ := s
  dsimp only at hd hq htk hav
  subst hd hq htk
  simp only [dispatch, deliverAll, Disp.dispose, List.nil_append, Bool.false_eq_true, if_false,
    List.getLast?_singleton, List.dropLast_singleton, hav, if_true, List.getLast?_nil]
  congr 2
  apply List.filter_congr
  intro x _
  by_cases h : x.provider = r.provider <;> simp [h]

/-- Two levels, two services. -/
example : dispatch 30 { inputs := [⟨1, 10⟩] }
    (.node ⟨1, 10⟩ [.node ⟨2, 10⟩ [.node ⟨3, 20⟩ []], .node ⟨4, 20⟩ []]) = .ok { log :=
      [.served ⟨1, 10⟩, .served ⟨4, 20⟩, .served ⟨2, 10⟩, .served ⟨3, 20⟩] } := by
  simp [dispatch, deliverAll, serve, triggerAll]

/-- C50 fails when a service that is requested during a dispatch is not available: the
disposal is made for the service of the outermost request (src/service/internal.rs:236
uses `provider` instead of `pending.provider`). The request of the missing service is
neither served nor disposed of, and a request of the outermost service, which is available,
is disposed of. -/
theorem C50_unavailable_violated : ∃ (s : Disp) (t : Tree Req), Idle s ∧ t.root ∈ s.inputs ∧
    ∀ fuel, ∃ s', dispatch (fuel + 10) s t = .ok s' ∧
      (∃ r ∈ t.all, r.provider ∈ s'.missing ∧ r ∈ s'.inputs ∧ Rec.served r ∉ s'.log ∧
        Rec.disposed r ∉ s'.log) ∧
      (∃ r, r.provider ∉ s'.missing ∧ Rec.disposed r ∈ s'.log) := by
  refine ⟨{ inputs := [⟨1, 10⟩, ⟨5, 10⟩], missing := [20] }, .node ⟨1, 10⟩ [.node ⟨2, 20⟩ []],
    ⟨rfl, rfl, rfl⟩, by simp [Tree.root], ?_⟩
  intro fuel
  refine ⟨{ inputs := [⟨2, 20⟩], missing := [20], log := [.served ⟨1, 10⟩, .disposed ⟨5, 10⟩] },
    ?_, ⟨⟨2, 20⟩, ?_⟩, ⟨5, 10⟩, ?_⟩
  · simp [dispatch, deliverAll, serve, triggerAll, Disp.dispose, List.erase]
  · simp [Tree.all, Tree.allList]
  · simp

end Verif.Reentrant
