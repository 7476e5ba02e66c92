import Verif.Inject.Clean
import Verif.Inject.Reach

/-
C52. Each injected service response is forwarded exactly once to the injector's target with
the session of its request, and cleanup of a session waits for all and only its injected tasks.

C64. Once an injected service has disposed of a request, the injector no longer counts as able
to produce an output for it.
-/
namespace Verif.Inject

/-- As long as the session is neither cleaned up nor stopped, the answers made for it are the
outputs given to the target with that session plus the answers on their way through a finish
node: none is lost, none duplicated, none moved to another session. -/
theorem C52_forward (ops : List Op) (s d : Nat) (h : Undisturbed s ops) :
    (run ops).out.countP (fun o => o.1 = s && o.2 = d) +
        (run ops).waiting.countP (fun q => q.2.1 = s && q.2.2 = d) =
      (answers ops).countP fun a => a.session = s && a.data = d := by
  have := (fold_moved s d ops {} inv_init).2 (good_init s) h
  simpa [moved, hits, run, answers] using this

/-- In any run, also with cleanups, no answer is forwarded more than once or with another
session. -/
theorem C52_once (ops : List Op) (s d : Nat) :
    (run ops).out.countP (fun o => o.1 = s && o.2 = d) ≤
      (answers ops).countP fun a => a.session = s && a.data = d := by
  have := (fold_moved s d ops {} inv_init).1
  simp only [moved, hits] at this
  simp only [run, answers]
  simp at this ⊢
  omega

/-- A request is answered at most once, with its own session. -/
theorem C52_request (ops : List Op) (s r : Nat) :
    (answers ops).countP (fun a => a.session = s && a.request = r) ≤
      (given ops).countP fun g => g.1 = s && g.2 = r := by
  have := fold_open s r ops {} inv_init
  simp only [open_, served, asks] at this
  simp only [answers, given]
  simp at this ⊢
  omega

/-- A cleanup is reported, or about to be reported, to its cleaner exactly when all injected
tasks of its session have been cleaned, and never twice. -/
theorem C52_cleanup (pre post : List Op) (s id : Nat) (now : List Nat)
    (h1 : NoCleanup id pre) (h2 : NoCleanup id post) :
    let st := run (pre ++ .cleanup s id now :: post)
    (id ∈ st.notified ∨ id ∈ st.finished ↔
      ∀ i, i ∈ (run pre).list → i.session = s → i.task ∈ now ∨ Op.cleaned id i.task ∈ post) ∧
    st.notified.count id + st.finished.count id ≤ 1 := by
  intro st
  have g0 := going_cleanup (unknown_run pre h1) s now
  have g := going_run post _ _ g0 (fun t ht => (List.mem_filter.1 ht).1) h2
  have e : post.foldl State.step ((run pre).cleanup s id now) = st := by
    simp [st, run, List.foldl_append, State.step]
  rw [e, List.filter_filter] at g
  have hrem : ((((run pre).list.filter fun i => i.session = s).map (·.task)).filter fun a =>
      (decide (Op.cleaned id a ∉ post)) && (decide (a ∉ now))) = [] ↔
      ∀ i, i ∈ (run pre).list → i.session = s → i.task ∈ now ∨ Op.cleaned id i.task ∈ post := by
    rw [List.filter_eq_nil_iff]
    constructor
    · intro h i hi hs
      have := h i.task (List.mem_map.2 ⟨i, List.mem_filter.2 ⟨hi, by simpa using hs⟩, rfl⟩)
      simp only [Bool.and_eq_true, decide_eq_true_eq, not_and] at this
      by_cases hn : i.task ∈ now
      · exact .inl hn
      · right
        apply Classical.byContradiction
        intro hc
        exact this hc hn
    · intro h t ht
      obtain ⟨i, hi, rfl⟩ := List.mem_map.1 ht
      rw [List.mem_filter] at hi
      simp only [Bool.and_eq_true, decide_eq_true_eq, not_and]
      intro hc hn
      rcases h i hi.1 (by simpa using hi.2) with h | h
      · exact hn h
      · exact hc h
  by_cases hr : ((((run pre).list.filter fun i => i.session = s).map (·.task)).filter fun a =>
      (decide (Op.cleaned id a ∉ post)) && (decide (a ∉ now))) = []
  · obtain ⟨_, hd⟩ := g.done hr
    have hall := hrem.1 hr
    rcases hd with ⟨h3, h4, _⟩ | ⟨h3, h4⟩
    · refine ⟨⟨fun _ => hall, fun _ => .inr (List.count_pos_iff.1 (by omega))⟩, by omega⟩
    · refine ⟨⟨fun _ => hall, fun _ => .inl (List.count_pos_iff.1 (by omega))⟩, by omega⟩
  · obtain ⟨_, _, h3, h4⟩ := g.busy hr
    refine ⟨⟨?_, fun h => absurd (hrem.2 h) hr⟩, by omega⟩
    rintro (h | h)
    · have := List.count_pos_iff.2 h; omega
    · have := List.count_pos_iff.2 h; omega

/-- The tasks that are told to clean up are those of the session. -/
theorem C52_only (pre post : List Op) (s id : Nat) (now : List Nat)
    (h1 : NoCleanup id pre) (h2 : NoCleanup id post) (t : Nat) :
    (id, t) ∈ (run (pre ++ .cleanup s id now :: post)).asked ↔
      ∃ i, i ∈ (run pre).list ∧ i.session = s ∧ i.task = t := by
  have g0 := going_cleanup (unknown_run pre h1) s now
  have g := going_run post _ _ g0 (fun t ht => (List.mem_filter.1 ht).1) h2
  have e : post.foldl State.step ((run pre).cleanup s id now) =
      run (pre ++ .cleanup s id now :: post) := by
    simp [run, List.foldl_append, State.step]
  rw [e] at g
  rw [g.asked t, List.mem_map]
  constructor
  · rintro ⟨i, hi, rfl⟩
    rw [List.mem_filter] at hi
    exact ⟨i, hi.1, by simpa using hi.2, rfl⟩
  · rintro ⟨i, hi, hs, rfl⟩
    exact ⟨i, List.mem_filter.2 ⟨hi, by simpa using hs⟩, rfl⟩

/-- Without disposals the injector counts as able to produce an output for the session exactly
while a request of the session waits, is with a service, or has an answer on its way. What is
missing: this is false when a service disposes of a request, `C64_violated`. -/
theorem C64_partial (ops : List Op) (s : Nat) (h : Undisturbed s ops)
    (hd : ∀ t, Op.dispose t ∉ ops) :
    (run ops).isReachable s false = true ↔
      (∃ i, i ∈ (run ops).inputs ∧ i.1 = s) ∨ (∃ w, w ∈ (run ops).working ∧ w.session = s) ∨
        ∃ q, q ∈ (run ops).waiting ∧ q.2.1 = s := by
  obtain ⟨g, hb⟩ := fold_backed ops {} inv2_init (good_init s) h hd (by intro j hj; cases hj)
  change Good (run ops) s at g
  simp only [State.isReachable, Bool.or_false, Bool.or_eq_true, List.any_eq_true,
    decide_eq_true_eq]
  constructor
  · rintro (h | ⟨j, hj, hs⟩)
    · exact .inl h
    · rcases hb j hj hs with ⟨w, hw, _, h4⟩ | ⟨q, hq, _, h4⟩
      · exact .inr (.inl ⟨w, hw, h4.trans hs⟩)
      · exact .inr (.inr ⟨q, hq, h4.trans hs⟩)
  · rintro (h | ⟨w, hw, hs⟩ | ⟨q, hq, hs⟩)
    · exact .inl h
    · obtain ⟨j, hj, _, h4⟩ := g.work w hw hs
      exact .inr ⟨j, hj, h4⟩
    · obtain ⟨j, hj, _, h4⟩ := g.wait q hq hs
      exact .inr ⟨j, hj, h4⟩

/-- When a service disposes of a request, the injector counts as able to produce an output for
the session for ever after, unless the session is cleaned up: a workflow whose result depends
on it is never found to be unreachable. -/
theorem C64_violated (pre post : List Op) (w : Work) (hw : w ∈ (run pre).working)
    (hl : ∃ i, i ∈ (run pre).list ∧ i.task = w.task ∧ i.session = w.session)
    (h : ∀ id now, Op.cleanup w.session id now ∉ post) :
    (run (pre ++ .dispose w.task :: post)).isReachable w.session false = true := by
  obtain ⟨j, hj, h1, h2⟩ := hl
  have i := run_inv2 pre
  have hf : j.finish = w.finish := by
    have := (i.tfL j hj).1
    have := i.tf w hw
    omega
  have o : Orphan ((run pre).step (.dispose w.task)) j := by
    refine ⟨hj, ?_, ?_⟩
    · intro v hv e
      obtain ⟨hv1, hv2⟩ := List.mem_filter.1 hv
      have := nodup_key i.ndW hv1 hw (e.trans hf)
      subst this
      simp at hv2
    · intro q hq e
      exact i.dis w hw q hq (hf.symm.trans e.symm)
  have o' := fold_orphan post _ (step_inv2 i _) o (by rw [h2]; exact h)
  have e : run (pre ++ .dispose w.task :: post) =
      post.foldl State.step ((run pre).step (.dispose w.task)) := by
    simp [run, List.foldl_append]
  rw [e]
  simp only [State.isReachable, Bool.or_false, Bool.or_eq_true, List.any_eq_true,
    decide_eq_true_eq]
  exact .inr ⟨j, o'.mem, h2⟩

/-! Examples. -/

/-- Two sessions, three requests; one answer is out, one on its way. -/
def sample : List Op :=
  [.input 7 1, .input 8 2, .input 7 3, .execute, .execute, .execute,
    .respond 3 22, .respond 1 11, .finish 0, .finish 9]

example : Undisturbed 7 sample ∧ (run sample).out = [(7, 11)] ∧
    (run sample).waiting = [(2, 8, 22)] ∧
    answers sample = [⟨8, 2, 22⟩, ⟨7, 1, 11⟩] ∧ given sample = [(7, 1), (8, 2), (7, 3)] :=
  ⟨⟨by intro id now; simp [sample], by decide⟩, by decide, by decide, by decide, by decide⟩

/-- A cleanup of a session with two tasks, one of which needs time. -/
example : NoCleanup 50 [.input 7 1, .input 8 2, .input 7 3, .execute, .execute, .execute] ∧
    (run [.input 7 1, .input 8 2, .input 7 3, .execute, .execute, .execute,
      .cleanup 7 50 [1]]).notified = [] ∧
    (run [.input 7 1, .input 8 2, .input 7 3, .execute, .execute, .execute,
      .cleanup 7 50 [1], .cleaned 50 3, .finalize]).notified = [] ∧
    (run [.input 7 1, .input 8 2, .input 7 3, .execute, .execute, .execute,
      .cleanup 7 50 [1], .cleaned 50 5, .finalize]).notified = [50] :=
  ⟨by intro s now; simp, by decide, by decide, by decide⟩

/-- The hypotheses of `C64_violated`. -/
example : (⟨1, 0, 7, 1⟩ : Work) ∈ (run [.input 7 1, .execute]).working ∧
    (⟨7, 1, 0⟩ : Injected) ∈ (run [.input 7 1, .execute]).list := by decide

/-- An answer that is on its way when its session is cleaned up ends in an error. -/
example : (run [.input 7 1, .execute, .respond 1 11, .cleanup 7 50 [1], .finish 0]).broken = 1 := by
  decide

end Verif.Inject
