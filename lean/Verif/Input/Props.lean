import Verif.Input.Lemmas

/-
Property theorems C07 and C08. `Node`, `step`, `run` model src/input.rs.
-/
namespace Verif.Input

open Verif.Buffer (Storage Retention window)

set_option linter.unusedSectionVars false

variable {S T : Type} [DecidableEq S]

/-- **C07**. An operation with an input storage behaves, over every history of
sends (of any sessions, active or not), takes and session cleanups, exactly as a
first-in-first-out list: same observations, same pending inputs. -/
theorem C07_inputs_fifo (n : Node S T) (hn : n.storage.isSome) (evs : List (Ev S T)) :
    (run n evs).2 = (specRun (pending n) evs).2 ∧
    pending (run n evs).1 = (specRun (pending n) evs).1 := by
  obtain ⟨q, hq⟩ := Option.isSome_iff_exists.mp hn
  have h := run_refines evs n q hq
  exact ⟨h.2, h.1⟩

/-- **C07**, read as an ordering: without cleanups, what was taken followed by what
is still pending is what was pending at first followed by what was sent to active
sessions, in that order, nothing lost and nothing twice. -/
theorem C07_arrival_order (n : Node S T) (hn : n.storage.isSome) (evs : List (Ev S T))
    (hc : noCleanup evs = true) :
    taken (run n evs).2 ++ pending (run n evs).1 = pending n ++ accepted evs := by
  have h := C07_inputs_fifo n hn evs
  rw [h.1, h.2]
  exact spec_order evs (pending n) hc

/-- Two sessions interleaved with takes. -/
example :
    let n : Node Nat Nat := ⟨some [⟨1, 10⟩], false, none, none⟩
    let evs : List (Ev Nat Nat) :=
      [.send 2 20 true, .take, .send 3 30 false, .send 1 11 true, .take]
    noCleanup evs = true ∧ taken (run n evs).2 = [⟨1, 10⟩, ⟨2, 20⟩] ∧
      pending (run n evs).1 = [⟨1, 11⟩] := by decide

/-- The values of session `s` waiting at an operation, in arrival order. -/
def waitingOf (n : Node S T) (s : S) : List T :=
  ((pending n).filter (fun i => decide (i.session = s))).map (·.data)

/-- The full statement of C08: cleaning removes exactly the inputs of the session,
and a buffer operation takes them over in arrival order. -/
def C08_full : Prop :=
  ∀ (n : Node Nat Nat) (s : Nat),
    pending (cleanupInputs n s) = (pending n).filter (fun i => decide (i.session ≠ s)) ∧
    ∀ b, n.buffer = some b → Buffer.Inv b → n.storage ≠ none →
      ∃ b', (cleanupInputs n s).buffer = some b' ∧
        b'.iter s = window b.retention (b.iter s ++ waitingOf n s) ∧
        ∀ s', s' ≠ s → b'.iter s' = b.iter s'

/-- **C08**, first half: cleaning an operation for session `s` removes exactly the
pending inputs of `s`; the others stay in order. -/
theorem C08_cleanup_exact (n : Node S T) (s : S) :
    pending (cleanupInputs n s) = (pending n).filter (fun i => decide (i.session ≠ s)) := by
  cases h : n.storage with
  | none =>
    cases hb : n.buffer <;> simp [pending, cleanupInputs, h, hb]
  | some q =>
    simp [pending, cleanup_storage n q s h, h, List.filter_reverse]

/-- **C08**, second half (partial): when the operation is a buffer, exactly the
removed inputs are pushed into the buffer of session `s` and no other session of
the buffer changes – but the code pushes them *newest first*, so arrival order is
only kept when at most one input was waiting (see `C08_cleanup_order_violated`). -/
theorem C08_cleanup_into_buffer_partial (n : Node S T) (s : S) (b : Storage S T)
    (hb : n.buffer = some b) (hinv : Buffer.Inv b) (hn : n.storage ≠ none) :
    ∃ b', (cleanupInputs n s).buffer = some b' ∧
      b'.iter s = window b.retention (b.iter s ++ (waitingOf n s).reverse) ∧
      ((waitingOf n s).length ≤ 1 →
        b'.iter s = window b.retention (b.iter s ++ waitingOf n s)) ∧
      ∀ s', s' ≠ s → b'.iter s' = b.iter s' := by
  cases h : n.storage with
  | none => exact absurd h hn
  | some q =>
    have hwait : waitingOf n s = ((q.filter (fun i => decide (i.session = s))).map (·.data)).reverse := by
      simp [waitingOf, pending, h, List.filter_reverse]
    have hbuf : (cleanupInputs n s).buffer =
        some ((waitingOf n s).reverse.foldl (fun b d => (b.forcePush s d).1) b) := by
      rw [hwait]
      simp [cleanupInputs, hb, h, removeLoop_indices]
    have hiter := foldl_forcePush_iter (waitingOf n s).reverse b s hinv
    refine ⟨_, hbuf, hiter.1, ?_, hiter.2⟩
    intro hl
    rw [hiter.1]
    congr 2
    match waitingOf n s, hl with
    | [], _ => rfl
    | [_], _ => rfl

/-- Hypotheses are met: a buffer operation with inputs of two sessions. -/
example : ∃ (n : Node Nat Nat) (b : Storage Nat Nat), n.buffer = some b ∧ Buffer.Inv b ∧
    n.storage ≠ none ∧ waitingOf n 1 = [10] ∧ waitingOf n 2 = [20, 21] :=
  ⟨⟨some [⟨2, 21⟩, ⟨1, 10⟩, ⟨2, 20⟩], false, none, some (Storage.new .keepAll)⟩,
    Storage.new .keepAll, rfl, Buffer.inv_new _, by simp, by decide, by decide⟩

/-- **C08** is false of the code in full: two inputs 1, 2 waiting at a buffer enter
it as 2, 1 (src/input.rs:352-363 reverses twice). -/
theorem C08_cleanup_order_violated : ¬ C08_full := by
  intro h
  have h2 := (h ⟨some [⟨0, 2⟩, ⟨0, 1⟩], false, none, some (Storage.new .keepAll)⟩ 0).2
    (Storage.new .keepAll) rfl (Buffer.inv_new _) (by simp)
  obtain ⟨b', hb', hi, _⟩ := h2
  have hb2 := C08_cleanup_into_buffer_partial
    (⟨some [⟨0, 2⟩, ⟨0, 1⟩], false, none, some (Storage.new .keepAll)⟩ : Node Nat Nat) 0
    (Storage.new .keepAll) rfl (Buffer.inv_new _) (by simp)
  obtain ⟨b'', hb'', hi', _⟩ := hb2
  rw [hb'] at hb''
  cases hb''
  rw [hi] at hi'
  revert hi'
  decide

end Verif.Input
