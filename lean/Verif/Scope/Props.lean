import Verif.Scope.Ends
import Verif.Scope.Erase

/-
Property theorems C27, C28 and C29. `run cfg (State.new n) es`: a new scope, with any
operations, cleanup workflows and settings, after any sequence of events.
-/
namespace Verif.Scope

variable {α κ : Type}

/-! ### C27: one outcome per request -/

/-- C27, at most one outcome, for every sequence of events in which no cleanup request of the
parent reaches an uninterruptible scope while the end of a session of that parent is being
carried out. For scopes that can be interrupted there is no restriction at all. Missing: see
`C27_both_violated`. -/
theorem C27_at_most_one_partial (cfg : Cfg) (n : Ent) (es : List (Ev α κ))
    (h : Along cfg (NoLateCleanup cfg) (State.new n) es) (s : Ent) :
    (outcomes s (run cfg (State.new n) es)).length ≤ 1 :=
  (run_safe cfg es _ (new_safe n) h).one s

theorem noLate_interruptible (cfg : Cfg) (hi : cfg.uninterruptible = false) :
    ∀ (es : List (Ev α κ)) (st : State α κ), Along cfg (NoLateCleanup cfg) st es := by
  intro es
  induction es with
  | nil => intro st; trivial
  | cons e es ih =>
    intro st
    refine ⟨?_, ih _⟩
    cases e <;> first | trivial | (intro hu; rw [hi] at hu; cases hu)

/-- C27, at most one outcome: every sequence of events, every scope that can be interrupted. -/
theorem C27_at_most_one_interruptible (cfg : Cfg) (hi : cfg.uninterruptible = false) (n : Ent)
    (es : List (Ev α κ)) (s : Ent) :
    (outcomes s (run cfg (State.new n) es)).length ≤ 1 :=
  C27_at_most_one_partial cfg n es (noLate_interruptible cfg hi es _) s

/-- C27, the response is the first value that reached terminate. -/
theorem C27_first_value_partial (cfg : Cfg) (n : Ent) (es : List (Ev α κ))
    (h : Along cfg (NoLateCleanup cfg) (State.new n) es) (s p : Ent) (v : α)
    (hr : .respond s p v ∈ (run cfg (State.new n) es).out) :
    firstValue s (run cfg (State.new n) es) = some v :=
  (run_safe cfg es _ (new_safe n) h).resp s p v hr

/-- C27, exactly one outcome, and which: when an event ends a session that is on its way, and
everything that was started for the session has come to its end, then the parent session of
the request was given exactly one outcome, and this is the result of that event, whatever
other events follow. Restricted to runs in which the parent leaves the scope alone. Missing:
see `C27_none_violated`. -/
theorem C27_exactly_one_partial (cfg : Cfg) (hn : cfg.nodes.Nodup) (n : Ent)
    (es1 es2 : List (Ev α κ)) (e : Ev α κ) (s p : Ent) (r : α ⊕ κ)
    (h : Along cfg Calm (State.new n) (es1 ++ e :: es2))
    (ho : Ongoing s p (run cfg (State.new n) es1)) (he : e.ends s p = some r)
    (hs : Settled s (run cfg (State.new n) (es1 ++ e :: es2))) :
    ∃ o, outcomes s (run cfg (State.new n) (es1 ++ e :: es2)) = [o] ∧ o.Gives s p r := by
  obtain ⟨h1, h2, h3⟩ := Along.append h
  obtain ⟨q1, s1⟩ := run_quiet cfg hn es1 _ (new_quiet cfg n) (new_safe n) h1
  obtain ⟨f2, v2⟩ := step_ends cfg hn _ s p e r q1 s1 h2 ho he
  have q2 := step_quiet cfg hn _ e q1 s1 h2
  have s2 := step_safe cfg _ e s1 (h2.noLate cfg)
  obtain ⟨q3, s3⟩ := run_quiet cfg hn es2 _ q2 s2 h3
  have f3 := run_fate cfg hn s p (endOf r) es2 _ q2 s2 h3 f2
  have hrun : run cfg (State.new n) (es1 ++ e :: es2) =
      run cfg (step cfg (run cfg (State.new n) es1) e) es2 := by
    rw [run_append]; rfl
  rw [hrun] at hs ⊢
  generalize hst : run cfg (step cfg (run cfg (State.new n) es1) e) es2 = st at *
  rcases f3 with ⟨a, ha, e1, e2, e3⟩ | ⟨o, hmem, hends⟩
  · -- an entry that is still there has something under way
    exfalso
    cases hf : a.flows with
    | none =>
      rcases q3.prog a ha hf with ⟨_, ⟨m, hm⟩, _⟩ | ⟨ns, hne, _, _, _, hm⟩
      · have : mkClean cfg a m ∈ st.finished.filter (fun c => c.session = a.sid) := by
          rw [hm]; simp
        exact hs.finished _ (List.mem_filter.mp this).1 e1
      · cases ns with
        | nil => exact hne rfl
        | cons m ns =>
          have : mkClean cfg a m ∈ st.pending.filter (fun c => c.session = a.sid) := by
            rw [hm]; simp
          exact hs.pending _ (List.mem_filter.mp this).1 e1
    | some fs =>
      obtain ⟨g1, g2⟩ := q3.flows a ha fs hf
      cases fs with
      | nil => exact g1 (by simp) rfl
      | cons w fs => exact hs.running (w, a.sid) ((g2 w).mp (by simp)) e1
  · have hone := s3.one s
    have hmo : o ∈ outcomes s st := by
      refine List.mem_filter.mpr ⟨hmem, ?_⟩
      cases r <;> cases o <;> simp [endOf, Out.Ends] at hends <;> simp [Out.isOutcomeOf, hends.1]
    have heq : outcomes s st = [o] := by
      cases hout : outcomes s st with
      | nil => rw [hout] at hmo; cases hmo
      | cons o' l =>
        rw [hout] at hone hmo
        cases l with
        | nil => rw [List.mem_singleton.mp hmo]
        | cons _ _ => simp at hone
    refine ⟨o, heq, ?_⟩
    cases r with
    | inr k => cases o <;> simp [endOf, Out.Ends] at hends <;> exact hends
    | inl v =>
      cases o <;> simp [endOf, Out.Ends] at hends
      rename_i s' p' v'
      obtain ⟨rfl, rfl⟩ := hends
      refine ⟨rfl, rfl, ?_⟩
      have a1 := s3.resp _ _ _ hmem
      have a2 := firstValue_mono cfg s' v es2 _ (v2 v rfl)
      rw [hst] at a2
      rw [a2] at a1
      exact (Option.some.inj a1).symm

/-- C27, no request is lost: each request that was begun is on its way, or something of its
end is still being carried out, or its parent session was given exactly one outcome.
Restricted to runs in which the parent leaves the scope alone. -/
theorem C27_not_lost_partial (cfg : Cfg) (hn : cfg.nodes.Nodup) (n : Ent) (es : List (Ev α κ))
    (h : Along cfg Calm (State.new n) es) (s p : Ent)
    (hb : (s, p) ∈ (run cfg (State.new n) es).begun) :
    Ongoing s p (run cfg (State.new n) es) ∨ ¬ Settled s (run cfg (State.new n) es) ∨
      ∃ o, outcomes s (run cfg (State.new n) es) = [o] ∧ o.parent = some p := by
  obtain ⟨q, sf⟩ := run_quiet cfg hn es _ (new_quiet cfg n) (new_safe n) h
  generalize run cfg (State.new n) es = st at *
  have entry : ∀ a ∈ st.awaiting, a.sid = s → ¬ Settled s st := by
    intro a ha e1 hs
    cases hf : a.flows with
    | none =>
      rcases q.prog a ha hf with ⟨_, ⟨m, hm⟩, _⟩ | ⟨ns, hne, _, _, _, hm⟩
      · have : mkClean cfg a m ∈ st.finished.filter (fun c => c.session = a.sid) := by
          rw [hm]; simp
        exact hs.finished _ (List.mem_filter.mp this).1 e1
      · cases ns with
        | nil => exact hne rfl
        | cons m ns =>
          have : mkClean cfg a m ∈ st.pending.filter (fun c => c.session = a.sid) := by
            rw [hm]; simp
          exact hs.pending _ (List.mem_filter.mp this).1 e1
    | some fs =>
      obtain ⟨g1, g2⟩ := q.flows a ha fs hf
      cases fs with
      | nil => exact g1 (by simp) rfl
      | cons w fs => exact hs.running (w, a.sid) ((g2 w).mp (by simp)) e1
  rcases q.begun _ hb with ⟨x, hx, e1, e2⟩ | ⟨a, ha, e1, _⟩ | ⟨o, ho, e⟩
  · rcases q.status x hx with hs | hs
    · refine Or.inl ?_
      have : x = { parent := p, sid := s, status := .ongoing } := by
        cases x; simp_all
      unfold Ongoing
      rw [← this]; exact hx
    · obtain ⟨a, ha, e⟩ := q.started x hx hs
      exact Or.inr (Or.inl (entry a ha (e.trans e1)))
  · exact Or.inr (Or.inl (entry a ha e1))
  · refine Or.inr (Or.inr ⟨o, ?_, ?_⟩)
    · have hone := sf.one s
      cases hout : outcomes s st with
      | nil => dsimp only at ho; rw [hout] at ho; cases ho
      | cons o' l =>
        dsimp only at ho
        rw [hout] at hone ho
        cases l with
        | nil => rw [List.mem_singleton.mp ho]
        | cons _ _ => simp at hone
    · cases o <;> first | exact e | cases e

/-- A scope with one operation (entity 3) and one cleanup workflow that runs in any case. -/
def scope1 (uninterruptible : Bool) : Cfg :=
  { self := 2, nodes := [3], uninterruptible, flows := [⟨true, true⟩], workflow := false }

/-- The events of a request of session 1, which becomes session 10: two values arrive, then a
cancellation; the operation answers; the cleanup workflow, session 11, runs. -/
def events1 : List (Ev Nat Nat) :=
  [.begin 1 false none none [], .terminate 10 5 [], .terminate 10 6 [], .cancel (some 10) 7 [],
   .cleaned ⟨2, 3, 10, 10⟩, .trigger, .flowDone 11 none]

example : Along (scope1 true) Calm (State.new 10) events1 := by
  simp [Along, events1, Calm, step, beginScope, State.new, scope1, terminate, transitionOne,
    Status.toFinished, cleanupEntire, cleanOne, cleanNodes, State.clean, validate]

example : outcomes 10 (run (scope1 true) (State.new 10) events1) = [.respond 10 1 5] := by decide

/-- C27 is false of the code: an uninterruptible scope gives a response and a cancellation for
the same request, when the parent asks for a cleanup after the session terminated and a
cancellation comes before the cleanup of the operations is done. `to_cleanup`
(src/operation/scope.rs:184-196) turns the status `Terminated` into `DeferredCleanup`, and
`to_cancelled` (lines 218-224) takes this for a session that has not ended. -/
theorem C27_both_violated : outcomes 10 (run (scope1 true) (State.new 10 : State Nat Nat)
    [.begin 1 false none none [], .terminate 10 5 [], .cleanup ⟨9, 2, 1, 8⟩ [],
     .cancel (some 1) 7 [], .cleaned ⟨2, 3, 10, 10⟩, .trigger, .flowDone 11 none,
     .cleaned ⟨2, 3, 10, 1⟩, .trigger, .flowDone 12 none]) = [.respond 10 1 5, .cancel 10 1 7 []] := by decide

/-- C27 is false of the code: two requests of the same parent session are cancelled together
through the parent session, both operations answer, all cleanup workflows end, nothing is
under way any more, and one of the requests has no outcome. Both cleanups have the cleanup id
of the parent session, so that the second overwrites the first in `CleanupContents`
(src/operation/cleanup.rs:141-147, src/operation/scope.rs:974-1015). -/
theorem C27_none_violated :
    let st := run (scope1 false) (State.new 10 : State Nat Nat)
      [.begin 1 false none none [], .begin 1 false none none [], .cancel (some 1) 7 [],
       .cleaned ⟨2, 3, 10, 1⟩, .cleaned ⟨2, 3, 11, 1⟩, .trigger, .trigger, .flowDone 12 none]
    st.pending = [] ∧ st.finished = [] ∧ st.running = [] ∧
    outcomes 10 st = [.cancel 10 1 7 []] ∧ outcomes 11 st = [] ∧
    ¬ (⟨1, 11, .ongoing⟩ ∈ st.sessions) := by decide

/-! ### C28: the outcome comes after the cleanup, and then at once -/

/-- C28, safety: when an outcome for a request was passed on, every operation of the scope was
asked to clean up its session and has answered, every cleanup workflow that applies was run
and has come to its end. Restricted to runs in which the parent leaves the scope alone.
Missing: see `C28_early_violated`. -/
theorem C28_after_cleanup_partial (cfg : Cfg) (hn : cfg.nodes.Nodup) (n : Ent)
    (es : List (Ev α κ)) (h : Along cfg Calm (State.new n) es) (s : Ent) (o : Out α κ)
    (ho : o ∈ outcomes s (run cfg (State.new n) es)) :
    CleanedUp cfg s o.IsResponse (run cfg (State.new n) es) := by
  obtain ⟨q, sf⟩ := run_quiet cfg hn es _ (new_quiet cfg n) (new_safe n) h
  generalize run cfg (State.new n) es = st at *
  obtain ⟨g1, g2, g3, g4⟩ := q.over s o ho
  refine ⟨g3, ?_, ⟨?_, ?_, ?_⟩⟩
  · intro f hf hr
    refine g4 f (List.mem_filter.mpr ⟨hf, ?_⟩)
    cases o <;> simp [Out.IsResponse, Out.isResponse] at hr ⊢ <;> exact hr
  · intro c hc e
    obtain ⟨a, ha, _, e'⟩ := q.pend c hc
    exact g1 a ha (e'.trans e)
  · intro c hc e
    obtain ⟨a, ha, _, e'⟩ := q.fin c hc
    exact g1 a ha (e'.trans e)
  · intro r hr e
    obtain ⟨a, ha, e', _⟩ := q.run r hr
    exact g1 a ha (e'.trans e)

/-- C28, promptness: as soon as nothing of the end of a session is under way, its outcome has
been passed on. The same restriction. -/
theorem C28_prompt_partial (cfg : Cfg) (hn : cfg.nodes.Nodup) (n : Ent) (es : List (Ev α κ))
    (h : Along cfg Calm (State.new n) es) (s p : Ent)
    (hb : (s, p) ∈ (run cfg (State.new n) es).begun)
    (ho : ¬ Ongoing s p (run cfg (State.new n) es))
    (hs : Settled s (run cfg (State.new n) es)) :
    ∃ o, outcomes s (run cfg (State.new n) es) = [o] ∧ o.parent = some p := by
  rcases C27_not_lost_partial cfg hn n es h s p hb with h1 | h1 | h1
  · exact absurd h1 ho
  · exact absurd hs h1
  · exact h1

/-- One step before the end of the events above nothing was passed on. -/
example : outcomes 10 (run (scope1 true) (State.new 10) (events1.take 6)) = [] := by decide

example : (10, 1) ∈ (run (scope1 true) (State.new 10) events1).begun := by decide

/-- C28 is false of the code: a response is passed on although an operation has not answered
the clean request. The session terminated and the operation 3 is cleaning up; the parent asks
for a cleanup, which makes a second entry and a second clean request for the same session,
and the operation answers the second request only. (The operation nodes that overlook a
cleanup are those of `C49_overlap_violated`.) -/
theorem C28_early_violated :
    let st := run (scope1 false) (State.new 10 : State Nat Nat)
      [.begin 1 false none none [], .terminate 10 5 [], .cleanup ⟨9, 2, 1, 8⟩ [(3, 10)],
       .trigger, .flowDone 11 none]
    outcomes 10 st = [.respond 10 1 5] ∧ st.pending = [⟨2, 3, 10, 10⟩] := by decide

/-! ### C29: scopes that cannot be interrupted -/

/-- C29, the scope keeps running: with and without the cleanup requests of the parent an
uninterruptible scope has the same outcomes. Missing: cleanup requests for a session whose end
is being carried out (`C27_both_violated`), and that the cleanup of the parent waits, which is
false (`C29_parent_waits_violated`). -/
theorem C29_keeps_running_partial (cfg : Cfg) (hu : cfg.uninterruptible = true) (n : Ent)
    (es : List (Ev α κ)) (h : Along cfg (NoLateCleanup cfg) (State.new n) es) (s : Ent) :
    outcomes s (run cfg (State.new n) es) =
      outcomes s (run cfg (State.new n) (es.filter (fun e => !e.isCleanup))) := by
  have he := run_erase cfg hu es (State.new n) (State.new n) (fun a ha => by cases ha) rfl h
  rw [← he]
  unfold outcomes State.erase
  dsimp only
  rw [List.filter_filter]
  apply List.filter_congr
  intro o _
  cases o <;> simp [Out.isOutcomeOf, Out.isNotify]

/-- A cleanup request in the middle of the events above. -/
example : outcomes 10 (run (scope1 true) (State.new 10 : State Nat Nat)
    (.begin 1 false none none [] :: .cleanup ⟨9, 2, 1, 8⟩ [] :: events1.drop 1)) =
    [.respond 10 1 5] := by decide

/-- The same cleanup request stops a scope that can be interrupted. -/
example : outcomes 10 (run (scope1 false) (State.new 10 : State Nat Nat)
    (.begin 1 false none none [] :: .cleanup ⟨9, 2, 1, 8⟩ [] :: events1.drop 1)) = [] := by decide

/-- C29 is false of the code: the cleanup of the parent does not wait for an uninterruptible
scope. In every state the request is answered at once. -/
theorem C29_answered_at_once (cfg : Cfg) (hu : cfg.uninterruptible = true) (st : State α κ)
    (c : Cleanup) (now : List (Ent × Ent)) : Answered c (step cfg st (.cleanup c now)) := by
  show _ ∈ (dynCleanup cfg c now st).out
  rw [dynCleanup_noEarly cfg hu]
  exact List.mem_append_right _ (List.mem_singleton.mpr rfl)

/-- C29 is false of the code: the request is answered while the session is on its way; the
parent session then ends and is despawned, and with it the session; when the session
terminates, there is no response. -/
theorem C29_parent_waits_violated :
    let es : List (Ev Nat Nat) := [.begin 1 false none none [], .cleanup ⟨9, 2, 1, 8⟩ []]
    let st := run (scope1 true) (State.new 10) es
    let st' := run (scope1 true) (State.new 10) (es ++ [.despawn 1, .terminate 10 5 []])
    .notify ⟨9, 2, 1, 8⟩ ∈ st.out ∧ outcomes 10 st = [] ∧
      st.sessions.map (·.sid) = [10] ∧ st'.out = [.notify ⟨9, 2, 1, 8⟩, .broken 10] := by decide

end Verif.Scope
