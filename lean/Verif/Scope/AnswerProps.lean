import Verif.Scope.Answer3
import Verif.Scope.Props

/-
Property theorem C114: the answer to a cleanup request of the parent.
-/
namespace Verif.Scope

variable {α κ : Type}

/-- C114. Sessions are on their way in a scope that can be interrupted, and the parent asks for
the cleanup of its session. Whatever happens afterwards to these and to other sessions: the
request is answered at most once; when it is answered all sessions of the parent are gone, every
operation of the scope was asked to clean each of them up and has done so, and every cleanup
workflow that applies was run to its end for each of them; and as soon as nothing of this is
under way any more the answer has been given. Restricted to a parent session that has one
session in this scope, or operations that answer at once, and to a cleanup id that is used once.
Missing: see the examples of violations below. -/
theorem C114_answered_partial (cfg : Cfg) (hn : cfg.nodes.Nodup)
    (hu : cfg.uninterruptible = false) (n : Ent) (es1 es2 : List (Ev α κ)) (c : Cleanup)
    (now : List (Ent × Ent))
    (h1 : Along cfg Calm (State.new n) es1)
    (ho : ∃ s, Ongoing s c.session (run cfg (State.new n) es1))
    (hs : Sole cfg c now (run cfg (State.new n) es1))
    (h2 : Along cfg (Apart c) (step cfg (run cfg (State.new n) es1) (.cleanup c now)) es2) :
    let st := run cfg (State.new n) (es1 ++ .cleanup c now :: es2)
    (answers c st).length ≤ 1 ∧
    (Answered c st → ∀ s, Ongoing s c.session (run cfg (State.new n) es1) →
      CleanedUp cfg s False st ∧ ∀ x ∈ st.sessions, x.sid ≠ s) ∧
    ((∀ s, Ongoing s c.session (run cfg (State.new n) es1) → Settled s st) → Answered c st) := by
  have hrun : run cfg (State.new n) (es1 ++ .cleanup c now :: es2) =
      run cfg (step cfg (run cfg (State.new n) es1) (.cleanup c now)) es2 := by
    rw [run_append]; rfl
  dsimp only
  rw [hrun]
  obtain ⟨q, _⟩ := run_quiet cfg hn es1 _ (new_quiet cfg n) (new_safe n) h1
  obtain ⟨ss, hnd, hss, hreq⟩ := request_asked cfg hn hu c now _ q ho hs
  have hA := run_asked cfg hnd es2 _ hreq h2
  generalize run cfg (step cfg (run cfg (State.new n) es1) (.cleanup c now)) es2 = st at *
  have hmem : Answered c st ↔ answers c st ≠ [] := by
    unfold Answered answers
    constructor
    · intro h e
      rw [List.filter_eq_nil_iff] at e
      exact e _ h (by simp [Out.isAnswer])
    · intro h
      cases hl : st.out.filter (Out.isAnswer c) with
      | nil => exact absurd hl h
      | cons o l =>
        have ho : o ∈ st.out.filter (Out.isAnswer c) := by rw [hl]; simp
        obtain ⟨h1, h2⟩ := List.mem_filter.mp ho
        cases o <;> simp [Out.isAnswer] at h2
        rw [← h2]; exact h1
  rcases hA.phase with ⟨p, a, ha, hf⟩ | p
  · have notes := p.notes
    refine ⟨by rw [notes]; simp, fun h => absurd notes (hmem.mp h), ?_⟩
    intro hs
    have hsett := hs a.sid ((hss _).mp (mine_sid hA.side ha))
    exfalso
    cases hfl : a.flows with
    | none =>
      rcases (p.waiting a ha).mp hfl with ⟨d, hd, e⟩ | ⟨d, hd, e⟩
      · exact hsett.finished d (List.mem_filter.mp hd).1 e
      · exact hsett.pending d (List.mem_filter.mp hd).1 e
    | some l =>
      cases l with
      | nil => exact hf hfl
      | cons w l => exact hsett.running _ (((p.run a ha _ hfl).1 w).mpr (by simp)) rfl
  · have notes := p.notes
    refine ⟨by rw [notes]; simp, ?_, fun _ => hmem.mpr (by rw [notes]; simp)⟩
    intro _ s hs
    replace hs := (hss s).mpr hs
    refine ⟨⟨hA.asked s hs, ?_, ⟨?_, ?_, ?_⟩⟩, ?_⟩
    · intro f hf hr
      refine p.all s hs f (List.mem_filter.mpr ⟨hf, ?_⟩)
      simpa using hr
    · rintro d hd rfl
      have : d ∈ st.pending.filter (mineC c ss) := List.mem_filter.mpr ⟨hd, by simp [mineC, hs]⟩
      rw [p.pend] at this; cases this
    · rintro d hd rfl
      have : d ∈ st.finished.filter (mineC c ss) := List.mem_filter.mpr ⟨hd, by simp [mineC, hs]⟩
      rw [p.fin] at this; cases this
    · rintro ⟨w, t⟩ hr rfl
      exact p.run t hs w hr
    · rintro x hx rfl
      exact p.gone x hx hs

/-- C114, a scope that has nothing for the parent session answers at once, in every state. -/
theorem C114_nothing (cfg : Cfg) (st : State α κ) (c : Cleanup) (now : List (Ent × Ent))
    (h : ∀ x ∈ st.sessions, x.parent ≠ c.session) :
    (step cfg st (.cleanup c now)).out = st.out ++ [.notify c] := by
  show (dynCleanup cfg c now st).out = _
  have : (transition (fun p => p.parent == c.session) (Status.toCleanup cfg.uninterruptible)
      st.sessions).2 = [] := by
    unfold transition
    dsimp only
    rw [List.map_eq_nil_iff, List.filter_eq_nil_iff]
    intro x hx e
    simp only [Bool.and_eq_true, beq_iff_eq] at e
    exact h x hx e.1
  unfold dynCleanup
  dsimp only
  rw [this]
  rfl

/-- The request of session 1 became session 10; session 9 asks for the cleanup with the id 8;
the operation 3 answers; a cleanup workflow, session 11, runs. Meanwhile another session is
begun and terminates. -/
def events2 : List (Ev Nat Nat) :=
  [.begin 4 false none none [], .cleaned ⟨2, 3, 10, 8⟩, .terminate 11 5 [], .trigger,
   .flowDone 12 none]

example : Along (scope1 false) Calm (State.new 10 : State Nat Nat) [.begin 1 false none none []] := by
  simp [Along, Calm, State.new]

example : Along (scope1 false) (Apart ⟨9, 2, 1, 8⟩)
    (step (scope1 false) (run (scope1 false) (State.new 10 : State Nat Nat)
      [.begin 1 false none none []]) (.cleanup ⟨9, 2, 1, 8⟩ [])) events2 := by
  simp [Along, Apart, events2]

example : Ongoing 10 1 (run (scope1 false) (State.new 10 : State Nat Nat)
    [.begin 1 false none none []]) := by
  simp [Ongoing, run, step, beginScope, State.new, validate]

example : Sole (scope1 false) ⟨9, 2, 1, 8⟩ [] (run (scope1 false) (State.new 10 : State Nat Nat)
    [.begin 1 false none none []]) := by
  constructor <;> simp [run, step, beginScope, State.new, validate, answers]

example :
    let es : List (Ev Nat Nat) := .begin 1 false none none [] :: .cleanup ⟨9, 2, 1, 8⟩ [] :: events2
    answers ⟨9, 2, 1, 8⟩ (run (scope1 false) (State.new 10) (es.take 6)) = [] ∧
    answers ⟨9, 2, 1, 8⟩ (run (scope1 false) (State.new 10) es) = [.notify ⟨9, 2, 1, 8⟩] := by decide

/-- Two requests of session 1 became the sessions 10 and 11, and the operation answers at once
for both: the answer is given when the cleanup workflows, sessions 12 and 13, of both are done. -/
example : Sole (scope1 false) ⟨9, 2, 1, 8⟩ [(3, 10), (3, 11)]
    (run (scope1 false) (State.new 10 : State Nat Nat)
      [.begin 1 false none none [], .begin 1 false none none []]) := by
  constructor <;> simp [run, step, beginScope, State.new, validate, answers, scope1]

example :
    let es : List (Ev Nat Nat) := [.begin 1 false none none [], .begin 1 false none none [],
      .cleanup ⟨9, 2, 1, 8⟩ [(3, 10), (3, 11)], .trigger, .flowDone 12 none, .trigger,
      .flowDone 13 none]
    answers ⟨9, 2, 1, 8⟩ (run (scope1 false) (State.new 10) (es.take 6)) = [] ∧
    answers ⟨9, 2, 1, 8⟩ (run (scope1 false) (State.new 10) es) = [.notify ⟨9, 2, 1, 8⟩] := by decide

/-- C114 is false of the code for two requests of the same parent session: both sessions are
cleaned up under the id of the request, so that the second overwrites the first in
`CleanupContents` (src/operation/scope.rs:1254-1303, src/operation/cleanup.rs:141-147); one of
the two is never finished, nothing is under way any more, and the parent waits for ever. -/
theorem C114_two_violated :
    let st := run (scope1 false) (State.new 10 : State Nat Nat)
      [.begin 1 false none none [], .begin 1 false none none [], .cleanup ⟨9, 2, 1, 8⟩ [],
       .cleaned ⟨2, 3, 10, 8⟩, .cleaned ⟨2, 3, 11, 8⟩, .trigger, .trigger, .flowDone 12 none]
    st.pending = [] ∧ st.finished = [] ∧ st.running = [] ∧ answers ⟨9, 2, 1, 8⟩ st = [] := by decide

/-- C114 is false of the code for two sessions of which only the first has operations that
answer at once: when the flush loop takes its finished cleanup it clears the id of the request
(src/operation/cleanup.rs:208-213), which is also the id of the cleanup of the second session;
what the operation answers for that one is ignored, and the parent waits for ever. -/
theorem C114_later_violated :
    let st := run (scope1 false) (State.new 10 : State Nat Nat)
      [.begin 1 false none none [], .begin 1 false none none [], .cleanup ⟨9, 2, 1, 8⟩ [(3, 10)],
       .trigger, .cleaned ⟨2, 3, 11, 8⟩, .trigger, .flowDone 12 none]
    st.pending = [] ∧ st.finished = [] ∧ st.running = [] ∧ answers ⟨9, 2, 1, 8⟩ st = [] := by decide

/-- C114 is false of the code for a session that has terminated: while its cleanup workflow,
session 11, runs, the session is no longer in the storage of the scope
(src/operation/scope.rs:1108-1113), and the request is answered at once. -/
theorem C114_running_violated :
    let st := run (scope1 false) (State.new 10 : State Nat Nat)
      [.begin 1 false none none [], .terminate 10 5 [], .cleaned ⟨2, 3, 10, 10⟩, .trigger,
       .cleanup ⟨9, 2, 1, 8⟩ []]
    answers ⟨9, 2, 1, 8⟩ st = [.notify ⟨9, 2, 1, 8⟩] ∧ st.running = [(11, 10)] ∧
      outcomes 10 st = [] := by decide

/-- C114 is false of the code for a session that has terminated and is being cleaned up: the
request makes a second entry for the session, both cleanups write their cleanup workflows into
the first one (src/operation/scope.rs:1717-1722), so that the entry of the request never has
its workflows done, and the parent waits for ever. -/
theorem C114_terminated_violated :
    let st := run (scope1 false) (State.new 10 : State Nat Nat)
      [.begin 1 false none none [], .terminate 10 5 [], .cleanup ⟨9, 2, 1, 8⟩ [],
       .cleaned ⟨2, 3, 10, 10⟩, .cleaned ⟨2, 3, 10, 8⟩, .trigger, .trigger,
       .flowDone 11 none, .flowDone 12 none]
    st.pending = [] ∧ st.finished = [] ∧ st.running = [] ∧ answers ⟨9, 2, 1, 8⟩ st = [] := by decide

/-- C114 is false of the code for a second request, for example the cleanup of the whole parent
after a trim of this scope: it is answered at once, while the operation has not answered the
clean request. -/
theorem C114_second_violated :
    let st := run (scope1 false) (State.new 10 : State Nat Nat)
      [.begin 1 false none none [], .cleanup ⟨9, 2, 1, 8⟩ [], .cleanup ⟨9, 2, 1, 1⟩ []]
    answers ⟨9, 2, 1, 1⟩ st = [.notify ⟨9, 2, 1, 1⟩] ∧ st.pending = [⟨2, 3, 10, 8⟩] := by decide

end Verif.Scope
