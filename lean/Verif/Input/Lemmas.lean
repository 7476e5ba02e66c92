import Verif.Input.Spec
import Verif.Buffer.Lemmas

namespace Verif.Input

set_option linter.unusedSectionVars false

variable {S T : Type} [DecidableEq S]

/-- Removing all the indices of a session, from the back, is filtering. -/
theorem removeLoop_indices (q : List (Inp S T)) (s : S) :
    removeLoop q (indicesOf q s).reverse =
      (q.filter (fun i => decide (i.session ≠ s)),
       ((q.filter (fun i => decide (i.session = s))).map (·.data)).reverse) := by
  -- generalised to a prefix that is not touched
  have key : ∀ (q pre : List (Inp S T)) (k : Nat), pre.length = k →
      ∀ (rest : List Nat),
      removeLoop (pre ++ q) ((q.zipIdx k).filterMap
        (fun p => if p.1.session = s then some p.2 else none) |>.reverse |> (· ++ rest)) =
      let r := removeLoop (pre ++ q.filter (fun i => decide (i.session ≠ s))) rest
      (r.1, ((q.filter (fun i => decide (i.session = s))).map (·.data)).reverse ++ r.2) := by
    intro q
    induction q with
    | nil => intro pre k _ rest; simp
    | cons x q ih =>
      intro pre k hk rest
      by_cases hx : x.session = s
      · have := ih (pre ++ [x]) (k + 1) (by simp [hk]) (k :: rest)
        simp only [List.zipIdx_cons, List.filterMap_cons, hx, if_true, List.reverse_cons,
          List.append_assoc, List.cons_append, List.nil_append, List.filter_cons, decide_true,
          ne_eq, not_true, decide_false] at this ⊢
        rw [this]
        have e1 : (pre ++ x :: q.filter (fun i => decide (¬ i.session = s))).eraseIdx k =
            pre ++ q.filter (fun i => decide (¬ i.session = s)) := by
          subst hk
          rw [List.eraseIdx_append_of_length_le (Nat.le_refl _)]
          simp
        have e2 : (pre ++ x :: q.filter (fun i => decide (¬ i.session = s)))[k]? = some x := by
          subst hk
          simp
        simp only [removeLoop, e1, e2]
        simp
      · have := ih (pre ++ [x]) (k + 1) (by simp [hk]) rest
        simp only [List.zipIdx_cons, List.filterMap_cons, hx, if_false, List.append_assoc,
          List.cons_append, List.nil_append, List.filter_cons, decide_false, ne_eq, not_false_eq_true,
          decide_true, if_true] at this ⊢
        simpa using this
  have := key q [] 0 rfl []
  simpa [indicesOf, removeLoop] using this

end Verif.Input

namespace Verif.Input

open Verif.Buffer (Storage Retention window)

set_option linter.unusedSectionVars false

variable {S T : Type} [DecidableEq S]

theorem cleanup_storage (n : Node S T) (q : List (Inp S T)) (s : S) (h : n.storage = some q) :
    (cleanupInputs n s).storage = some (q.filter fun i => decide (i.session ≠ s)) := by
  unfold cleanupInputs
  cases n.buffer with
  | none => simp [h]
  | some b => simp [h, removeLoop_indices]

theorem step_refines (n : Node S T) (q : List (Inp S T)) (h : n.storage = some q) (e : Ev S T) :
    (step n e).1.storage = some ((specStep (pending n) e).1).reverse ∧
    (step n e).2 = (specStep (pending n) e).2 := by
  have hp : pending n = q.reverse := by simp [pending, h]
  cases e with
  | send s d a =>
    cases a <;> simp [step, giveInput, sneakInput, h, specStep, hp]
  | take =>
    rw [hp]
    rcases List.eq_nil_or_concat q with rfl | ⟨q', x, rfl⟩
    · simp [step, takeInput, tryTakeInput, h, specStep]
    · simp [step, takeInput, tryTakeInput, h, specStep]
  | cleanup s =>
    simp [step, cleanup_storage n q s h, specStep, hp, List.filter_reverse]

theorem run_refines (evs : List (Ev S T)) (n : Node S T) (q : List (Inp S T))
    (h : n.storage = some q) :
    pending (run n evs).1 = (specRun (pending n) evs).1 ∧
    (run n evs).2 = (specRun (pending n) evs).2 := by
  induction evs generalizing n q with
  | nil => simp [run, specRun]
  | cons e evs ih =>
    have h1 := step_refines n q h e
    have h2 := ih (step n e).1 _ h1.1
    have hp : pending (step n e).1 = (specStep (pending n) e).1 := by
      simp [pending, h1.1]
    rw [hp] at h2
    simp only [run, specRun]
    exact ⟨h2.1, by rw [h1.2, h2.2]⟩

theorem spec_order (evs : List (Ev S T)) (q : List (Inp S T)) (h : noCleanup evs = true) :
    taken (specRun q evs).2 ++ (specRun q evs).1 = q ++ accepted evs := by
  induction evs generalizing q with
  | nil => simp [specRun, taken, accepted]
  | cons e evs ih =>
    cases e with
    | send s d a =>
      have ih := fun q => ih q (by simpa [noCleanup] using h)
      cases a <;> simp [specRun, specStep, taken, accepted, ih]
    | take =>
      have ih := fun q => ih q (by simpa [noCleanup] using h)
      cases q with
      | nil => simp [specRun, specStep, taken, accepted, ih]
      | cons i q => simp [specRun, specStep, taken, accepted, ih]
    | cleanup s => cases h

/-- Pushing a list of values one after the other. -/
theorem foldl_forcePush (l : List T) (b : Storage S T) (s : S) :
    l.foldl (fun b d => (b.forcePush s d).1) b =
      (Buffer.run b (l.map fun d => (s, Buffer.Op.forcePush d))).1 := by
  induction l generalizing b with
  | nil => rfl
  | cons d l ih => simp only [List.foldl_cons, List.map_cons, Buffer.run]; exact ih _

theorem iter_window {b : Storage S T} (hinv : Buffer.Inv b) (s : S) :
    window b.retention (b.iter s) = b.iter s := by
  apply Buffer.window_of_fits
  cases hq : b.queues s with
  | none => simpa [Storage.iter, hq] using Buffer.fits_nil _
  | some q =>
    simp only [Storage.iter, hq]
    exact Buffer.fits_of_length_le (hinv s q hq) (by simp)

theorem forcePush_iter (d : T) (b : Storage S T) (s : S) (past : List T) (hinv : Buffer.Inv b)
    (hi : b.iter s = window b.retention past) :
    (b.forcePush s d).1.iter s = window b.retention (past ++ [d]) := by
  rw [← Buffer.specPush_window, ← hi]
  have hp := Buffer.implPush_reverse ((b.queues s).getD []) b.retention d (by
    intro hr
    cases hq : b.queues s with
    | none => rfl
    | some q => exact Buffer.inv_keepLast_zero hinv s q hq hr)
  have e : b.iter s = ((b.queues s).getD []).reverse := by
    simp only [Storage.iter]; cases b.queues s <;> rfl
  rw [e, ← hp]
  simp [Storage.iter, Storage.forcePush, Storage.set]

theorem foldl_forcePush_iter (l : List T) (b : Storage S T) (s : S) (hinv : Buffer.Inv b) :
    (l.foldl (fun b d => (b.forcePush s d).1) b).iter s = window b.retention (b.iter s ++ l) ∧
    ∀ s', s' ≠ s → (l.foldl (fun b d => (b.forcePush s d).1) b).iter s' = b.iter s' := by
  have key : ∀ (l : List T) (b : Storage S T) (past : List T), Buffer.Inv b →
      b.iter s = window b.retention past →
      (l.foldl (fun b d => (b.forcePush s d).1) b).iter s = window b.retention (past ++ l) ∧
      ∀ s', s' ≠ s → (l.foldl (fun b d => (b.forcePush s d).1) b).iter s' = b.iter s' := by
    intro l
    induction l with
    | nil => intro b past _ hi; exact ⟨by simpa using hi, fun _ _ => rfl⟩
    | cons d l ih =>
      intro b past hinv hi
      have h1 : Buffer.Inv (b.forcePush s d).1 :=
        Buffer.step_inv b s (.forcePush d) hinv (fun _ => rfl)
      have hr : (b.forcePush s d).1.retention = b.retention := rfl
      have h2 := ih (b.forcePush s d).1 (past ++ [d]) h1 (by
        rw [hr]; exact forcePush_iter d b s past hinv hi)
      refine ⟨?_, ?_⟩
      · simpa [hr] using h2.1
      · intro s' hs'
        have := h2.2 s' hs'
        simp only [List.foldl_cons]
        rw [this]
        have hf := Buffer.step_frame b s s' (.forcePush d) hs'
        have hf' : (b.forcePush s d).1.queues s' = b.queues s' := hf
        simp [Storage.iter, hf']
  exact key l b (b.iter s) hinv (iter_window hinv s).symm

end Verif.Input
