/-
C31, C32, C33 and C55: races between the threads that use one promise.

Every theorem is about an arbitrary assignment of calls to threads that the types permit
(`Legal`) and an arbitrary schedule of their atomic steps, with spurious wake-ups.
-/
import Verif.Promise.RaceCalm

set_option linter.unusedVariables false

namespace Verif.Promise.Race

variable {V : Type}

/-- Threads 0, 1 and 2 of an example; other threads do nothing. -/
def three (a b c : PC V) : Nat → PC V
  | 0 => a
  | 1 => b
  | 2 => c
  | _ => .idle

/-- A sender and two waiters. -/
def sendWait : Nat → PC Nat := three (.sStart 7) (.wStart false false) (.wPush false)
/-- A sender and a task that polls. -/
def sendPoll : Nat → PC Nat := three (.sStart 7) (.pIdle none) .idle
/-- An interrupter and an interruptible waiter; nothing is sent. -/
def interruptWait : Nat → PC Nat := three .nStart (.wPush false) .idle
/-- A sender and a waiter with `&mut` access. -/
def sendWaitMut : Nat → PC Nat := three (.sStart 7) (.wStart true false) .idle

theorem three_begins {a b c : PC V} (ha : Begins a) (hb : Begins b) (hc : Begins c) (t : Nat) :
    Begins (three a b c t) := by
  match t with
  | 0 => exact ha
  | 1 => exact hb
  | 2 => exact hc
  | _ + 3 => exact .idle

theorem legal_sendWait : Legal sendWait := by
  refine ⟨three_begins (.set _) (.wait _) (.interruptibleWait _), ?_, ?_⟩
  · intro t u v w ht hu
    match t, u with
    | 0, 0 => rfl
    | 1, _ => cases ht
    | 2, _ => cases ht
    | _ + 3, _ => cases ht
    | 0, 1 => cases hu
    | 0, 2 => cases hu
    | 0, _ + 3 => cases hu
  · intro t u ht hu
    match t with
    | 0 => cases ht
    | 1 => cases ht
    | 2 => cases ht
    | _ + 3 => cases ht

theorem legal_sendPoll : Legal sendPoll := by
  refine ⟨three_begins (.set _) .future .idle, ?_, ?_⟩
  · intro t u v w ht hu
    match t, u with
    | 0, 0 => rfl
    | 1, _ => cases ht
    | 2, _ => cases ht
    | _ + 3, _ => cases ht
    | 0, 1 => cases hu
    | 0, 2 => cases hu
    | 0, _ + 3 => cases hu
  · intro t u ht hu
    match t, u with
    | 1, 1 => rfl
    | 0, _ => cases ht
    | 2, _ => cases ht
    | _ + 3, _ => cases ht
    | 1, 0 => cases hu
    | 1, 2 => cases hu
    | 1, _ + 3 => cases hu

theorem legal_interruptWait : Legal interruptWait := by
  refine ⟨three_begins .interrupt (.interruptibleWait _) .idle, ?_, ?_⟩
  · intro t u v w ht hu
    match t with
    | 0 => cases ht
    | 1 => cases ht
    | 2 => cases ht
    | _ + 3 => cases ht
  · intro t u ht hu
    match t with
    | 0 => cases ht
    | 1 => cases ht
    | 2 => cases ht
    | _ + 3 => cases ht

theorem legal_sendWaitMut : Legal sendWaitMut := by
  refine ⟨three_begins (.set _) (.wait _) .idle, ?_, ?_⟩
  · intro t u v w ht hu
    match t, u with
    | 0, 0 => rfl
    | 1, _ => cases ht
    | 2, _ => cases ht
    | _ + 3, _ => cases ht
    | 0, 1 => cases hu
    | 0, 2 => cases hu
    | 0, _ + 3 => cases hu
  · intro t u ht hu
    match t, u with
    | 1, 1 => rfl
    | 0, _ => cases ht
    | 2, _ => cases ht
    | _ + 3, _ => cases ht
    | 1, 0 => cases hu
    | 1, 2 => cases hu
    | 1, _ + 3 => cases hu

/-! ### C31 -/

/-- Once the sender is done no thread is blocked, whatever the interleaving. -/
theorem C31_no_sleep {pc : Nat → PC V} (h : Legal pc) (evs : List Ev) (s : Nat)
    (hs : (run (init pc) evs).pc s = .sDone) (t : Nat) (m i : Bool) :
    (run (init pc) evs).pc t ≠ .wBlocked m i :=
  (inv_reach h evs).post.awake s t m i (by rw [hs]; rfl)

/-- If a result is sent, the threads can only come to rest when every call has returned. -/
theorem C31_all_return {pc : Nat → PC V} (h : Legal pc) (evs : List Ev) (s : Nat) (v : V)
    (hv : pc s = .sStart v) (hst : Stuck (run (init pc) evs)) (t : Nat) :
    Returned ((run (init pc) evs).pc t) := by
  have hi := inv_reach h evs
  have hk : ∀ evs : List Ev, ∀ st : St V, kind ((run st evs).pc s) = kind (st.pc s) := by
    intro evs
    induction evs with
    | nil => intro st; rfl
    | cons e es ih => intro st; rw [run_cons, ih, kind_act]
  have hks : kind ((run (init pc) evs).pc s) = .sender := by
    rw [hk]; simp only [init, hv]; rfl
  have hsd : (run (init pc) evs).pc s = .sDone := by
    rcases stuck_shape hi.locks hst s with h1 | ⟨m, i, h1⟩
    · generalize (run (init pc) evs).pc s = p at h1 hks ⊢
      cases h1 <;> simp [kind] at hks
      rfl
    · rw [h1] at hks; simp [kind] at hks
  rcases stuck_shape hi.locks hst t with h1 | ⟨m, i, h1⟩
  · exact h1
  · exact absurd h1 (C31_no_sleep h evs s hsd t m i)

/-- Steps a waiter still needs once the result is there. -/
private def rank : PC V → Nat
  | .wPush _ | .wRelock _ _ => 3
  | .wStart _ _ | .wLoop _ _ => 2
  | .wLocked _ _ | .wGot _ _ => 1
  | _ => 0

private theorem rank_step {st st' : St V} {t : Nat} (hi : Inv st) {s : Nat} (hs : st.pc s = .sDone)
    {m i : Bool} (hk : kind (st.pc t) = .waiter m i) (hst : step st t = some st') :
    rank (st'.pc t) < rank (st.pc t) := by
  have hp1 : posted (st.pc s) = true := by rw [hs]; rfl
  unfold step at hst
  cases hp : st.pc t <;> rw [hp] at hk hst <;> simp [kind] at hk <;> (try dsimp only at hst)
  case wLocked m i =>
    rcases hi.post.there s hp1 with h1 | h1
    · simp only [h1, if_true, Option.some.injEq] at hst
      subst hst; simp [setPC, rank]
    · have := h1 t; rw [hp] at this; simp [active] at this
  case wLoop m i =>
    rcases hi.post.there s hp1 with h1 | h1
    · simp only [h1, Bool.or_true, if_true, Option.some.injEq] at hst
      subst hst; simp [setPC, rank]
    · have := h1 t; rw [hp] at this; simp [active] at this
  case wWill m i => exact absurd hp (hi.post.will s t m i hp1)
  all_goals
    (try split at hst) <;> (try split at hst) <;>
      simp only [Option.some.injEq, reduceCtorEq] at hst <;> subst hst <;> simp [setPC, rank]

private theorem rank_other {st : St V} {t : Nat} (hi : Inv st) {s : Nat} (hs : st.pc s = .sDone)
    (e : Ev) (he : ¬(e = .run t ∧ (step st t).isSome = true)) {m i : Bool}
    (hk : kind (st.pc t) = .waiter m i) : rank ((act st e).pc t) = rank (st.pc t) := by
  have hn : ∀ m i, st.pc t ≠ .wBlocked m i := fun m i => hi.post.awake s t m i (by rw [hs]; rfl)
  have haw : awaken (st.pc t) = st.pc t := by
    cases hp : st.pc t <;> first | rfl | exact absurd hp (hn _ _)
  cases e with
  | run u =>
    simp only [act]
    cases hst : step st u with
    | none => rfl
    | some st' =>
      have e : t ≠ u := by
        intro e; subst e; exact he ⟨rfl, by rw [hst]; rfl⟩
      rcases step_other hst e with h1 | h1
      · simp [h1]
      · simp [h1, haw]
  | spurious u =>
    simp only [act]
    split
    · rename_i m i hp
      by_cases e : t = u
      · subst e; exact absurd hp (hn m i)
      · simp [setPC, e]
    · rfl
  | poll u w =>
    simp only [act]
    split
    · rename_i l hp
      by_cases e : t = u
      · subst e; rw [hp] at hk; simp [kind] at hk
      · simp [setPC, e]
    · rfl

private theorem sDone_act {st : St V} {s : Nat} (hs : st.pc s = .sDone) (e : Ev) :
    (act st e).pc s = .sDone := by
  cases e with
  | run u =>
    simp only [act]
    cases hst : step st u with
    | none => exact hs
    | some st' =>
      by_cases e : s = u
      · subst e; simp [step, hs] at hst
      · rcases step_other hst e with h1 | h1 <;> simp [h1, hs, awaken]
  | spurious u =>
    simp only [act]
    split
    · rename_i m i hp
      by_cases e : s = u
      · subst e; rw [hs] at hp; simp at hp
      · simp [setPC, e, hs]
    · exact hs
  | poll u w =>
    simp only [act]
    split
    · rename_i l hp
      by_cases e : s = u
      · subst e; rw [hs] at hp; simp at hp
      · simp [setPC, e, hs]
    · exact hs

private theorem turns_le {t : Nat} (evs : List Ev) (st : St V) (hi : Inv st) {s : Nat}
    (hs : st.pc s = .sDone) {m i : Bool} (hk : kind (st.pc t) = .waiter m i) :
    turns t st evs + rank ((run st evs).pc t) ≤ rank (st.pc t) := by
  induction evs generalizing st with
  | nil => simp [turns, run_nil]
  | cons e es ih =>
    have h1 := ih (act st e) (inv_act st e hi) (sDone_act hs e) (by rw [kind_act]; exact hk)
    rw [run_cons]
    simp only [turns]
    split
    · rename_i hc
      obtain ⟨h2, h3⟩ := hc
      subst h2
      cases hst : step st t with
      | none => rw [hst] at h3; simp at h3
      | some st' =>
        have h4 := rank_step hi hs hk hst
        have h5 : act st (.run t) = st' := by simp [act, hst]
        rw [h5] at h1 ⊢
        omega
    · rename_i hc
      have h4 := rank_other hi hs e hc hk
      omega

/-- Once the sender is done a waiting call takes at most three more steps: it is never made
to wait again. -/
theorem C31_few_steps {pc : Nat → PC V} (h : Legal pc) (evs more : List Ev) (s t : Nat)
    (hs : (run (init pc) evs).pc s = .sDone) (ht : Receives (pc t)) (hp : pc t ≠ .pIdle none) :
    turns t (run (init pc) evs) more ≤ 3 := by
  have hk : ∀ evs : List Ev, ∀ st : St V, kind ((run st evs).pc t) = kind (st.pc t) := by
    intro evs
    induction evs with
    | nil => intro st; rfl
    | cons e es ih => intro st; rw [run_cons, ih, kind_act]
  have hw : ∃ m i, kind ((run (init pc) evs).pc t) = .waiter m i := by
    rw [hk]
    simp only [init]
    generalize pc t = p at ht hp
    cases ht with
    | wait m => exact ⟨m, false, rfl⟩
    | interruptibleWait m => exact ⟨m, true, rfl⟩
    | future => exact absurd rfl hp
  obtain ⟨m, i, hw⟩ := hw
  have h1 := turns_le more _ (inv_reach h evs) hs hw
  have h2 : rank ((run (init pc) evs).pc t) ≤ 3 := by
    cases (run (init pc) evs).pc t <;> simp [rank]
  omega

/-- A wait without interrupter does not return before the result has been sent. -/
theorem C31_not_early {pc : Nat → PC V} (h : Legal pc) (evs : List Ev) (t : Nat) (m e : Bool)
    (ht : (run (init pc) evs).pc t = .wDone m false e) :
    ∃ s v, pc s = .sStart v ∧
      ((run (init pc) evs).result = some v ∨ (run (init pc) evs).seen = some v) := by
  have hv := vals_reach h evs
  rcases hv.done t m e ht with h1 | h1
  · obtain ⟨v, h2⟩ := Option.isSome_iff_exists.1 h1
    obtain ⟨s, h3⟩ := hv.result v h2
    exact ⟨s, v, h3, Or.inl h2⟩
  · obtain ⟨v, h2⟩ := Option.isSome_iff_exists.1 h1
    obtain ⟨s, h3⟩ := hv.seen v h2
    exact ⟨s, v, h3, Or.inr h2⟩

/-- Thread 1 blocks, thread 2 is about to block, then the sender runs. -/
def sleepThenSend : List Ev :=
  [.run 1, .run 1, .run 1, .run 1, .run 2, .run 2, .run 2, .run 2, .run 2,
   .run 0, .run 0, .run 0, .run 0, .run 0, .run 1, .run 2]

example : (run (init sendWait) sleepThenSend).pc 0 = .sDone ∧
    (run (init sendWait) sleepThenSend).pc 1 = .wLoop false false ∧
    (run (init sendWait) (sleepThenSend.take 9)).pc 2 = .wBlocked false true := by decide

example : (run (init sendWait) (sleepThenSend ++ [.run 1, .run 1])).pc 1 = .wDone false false false
    := by decide

example : (turns 1 (run (init sendWait) sleepThenSend) [.run 1, .spurious 2, .run 1, .run 1]) = 2
    := by decide

example : ∃ evs, Stuck (run (init sendWait) evs) := by
  refine ⟨sleepThenSend ++ [.run 1, .run 1, .run 2, .run 2, .run 2], ?_⟩
  intro t
  match t with
  | 0 => rfl
  | 1 => rfl
  | 2 => rfl
  | _ + 3 => rfl

/-! ### C32 -/

/-- The full claim: when the sender is done, the waker of a pending poll has been woken.
It is false: `C32_violated`. -/
def C32Full (V : Type) : Prop :=
  ∀ (pc : Nat → PC V), Legal pc → ∀ (evs : List Ev) (s p w : Nat),
    (run (init pc) evs).pc s = .sDone → (run (init pc) evs).pc p = .pIdle (some w) →
    w ∈ (run (init pc) evs).woken

/-- The poll finds nothing, the sender runs to completion, then the poll stores its waker:
nobody ever wakes the task. -/
theorem C32_violated : ¬ C32Full Nat := by
  intro h
  have := h sendPoll legal_sendPoll
    [.poll 1 5, .run 1, .run 0, .run 0, .run 0, .run 0, .run 0, .run 1] 0 1 5 (by decide) (by decide)
  revert this
  decide

/-- The claim holds if no sender takes the mutex between the two critical sections of a
poll. Missing: schedules in which it does, for which the claim is false. -/
theorem C32_wakes_partial {pc : Nat → PC V} (h : Legal pc) (evs : List Ev)
    (hc : PollCalm (init pc) evs) (s p w : Nat) (hs : (run (init pc) evs).pc s = .sDone)
    (hp : (run (init pc) evs).pc p = .pIdle (some w)) : w ∈ (run (init pc) evs).woken := by
  rcases (polls_reach h evs hc).wait p w hp with h1 | ⟨_, h2⟩
  · exact h1
  · have := h2 s (by rw [hs]; rfl)
    rw [hs] at this
    simp [early] at this

/-- A poll after the sender is done is ready at once, whatever happened before. -/
theorem C32_next_poll_ready {pc : Nat → PC V} (h : Legal pc) (evs : List Ev) (s p w : Nat)
    (hs : (run (init pc) evs).pc s = .sDone) (hp : (run (init pc) evs).pc p = .pTake w)
    (st' : St V) (hst : step (run (init pc) evs) p = some st') : st'.pc p = .pReady := by
  have hk := kept_reach h evs s p (by rw [hs]; rfl) (by rw [hp]; rfl)
  rcases hk with h1 | h1
  · rw [hp] at h1; simp at h1
  · unfold step at hst
    rw [hp] at hst
    dsimp only at hst
    split at hst
    · split at hst
      · simp only [Option.some.injEq] at hst; subst hst; simp [setPC]
      · rename_i hr; rw [hr] at h1; simp at h1
    · simp at hst

/-- A schedule without the race: poll, then send. -/
def pollThenSend : List Ev :=
  [.poll 1 5, .run 1, .run 1, .run 0, .run 0, .run 0, .run 0, .run 0]

example : (run (init sendPoll) pollThenSend).pc 0 = .sDone ∧
    (run (init sendPoll) pollThenSend).pc 1 = .pIdle (some 5) ∧
    (run (init sendPoll) pollThenSend).woken = [5] := by decide

theorem calm_pollThenSend : PollCalm (init sendPoll) pollThenSend := by
  have key : ∀ (st : St Nat), (∀ p w, st.pc p ≠ .pGap w) → ∀ e : Ev,
      ∀ t v p w, e = Ev.run t → st.pc t = .sStart v → st.pc p ≠ .pGap w :=
    fun st h e t v p w _ _ => h p w
  refine ⟨?_, ?_, ?_, ?_, ?_, ?_, ?_, ?_, trivial⟩
  case refine_3 =>
    intro t v p w he hp
    simp only [Ev.run.injEq] at he
    subst he
    exact absurd hp (by show PC.pGap 5 ≠ _; simp)
  all_goals
    refine key _ ?_ _
    intro p w
    match p with
    | 0 => intro h; cases h
    | 1 => intro h; cases h
    | 2 => intro h; cases h
    | _ + 3 => intro h; cases h

example : 5 ∈ (run (init sendPoll) pollThenSend).woken :=
  C32_wakes_partial legal_sendPoll _ calm_pollThenSend 0 1 5 (by decide) (by decide)

example : (run (init sendPoll) (pollThenSend ++ [.poll 1 6])).pc 1 = .pTake 6 := by decide

/-! ### C33 -/

/-- The full claim: if the threads come to rest after an interrupt that is not reset, every
interruptible wait has returned. It is false: `C33_violated`. -/
def C33Full (V : Type) : Prop :=
  ∀ (pc : Nat → PC V), Legal pc → (∀ t, pc t ≠ .rStart) → ∀ (evs : List Ev) (n t : Nat),
    (run (init pc) evs).pc n = .nDone → Stuck (run (init pc) evs) → ∀ m, pc t = .wPush m →
    Returned ((run (init pc) evs).pc t)

/-- The waiter decides to wait, the interrupter sets the flag and notifies, then the waiter
blocks. -/
def interruptRace : List Ev :=
  [.run 1, .run 1, .run 1, .run 1, .run 0, .run 0, .run 0, .run 0, .run 1]

theorem C33_violated : ¬ C33Full Nat := by
  intro h
  have hst : Stuck (run (init interruptWait) interruptRace) := by
    intro t
    match t with
    | 0 => rfl
    | 1 => rfl
    | 2 => rfl
    | _ + 3 => rfl
  have := h interruptWait legal_interruptWait
    (by
      intro t
      match t with
      | 0 => intro h; cases h
      | 1 => intro h; cases h
      | 2 => intro h; cases h
      | _ + 3 => intro h; cases h)
    interruptRace 0 1 (by decide) hst false rfl
  rw [show (run (init interruptWait) interruptRace).pc 1 = .wBlocked false true from rfl] at this
  cases this

/-- No interruptible waiter sleeps after an interrupt, if no notification falls between a
waiter's decision to wait and its blocking. Missing: schedules in which one does, for which
the claim is false. -/
theorem C33_no_sleep_partial {pc : Nat → PC V} (h : Legal pc) (hr : ∀ t, pc t ≠ .rStart)
    (evs : List Ev) (hc : InterruptCalm (init pc) evs) (n : Nat)
    (hn : (run (init pc) evs).pc n = .nDone) (t : Nat) (m : Bool) :
    (run (init pc) evs).pc t ≠ .wBlocked m true := by
  intro hb
  obtain ⟨_, hw, hno⟩ := (after_reach h hr evs).done n hn
  have hf : (run (init pc) evs).flags t = true := by
    rcases (cover_reach h evs).reg t (by rw [hb]; rfl) with h1 | h1
    · exact h1
    · rw [hw] at h1; simp at h1
  obtain ⟨k, r, hk⟩ := called_reach h evs hc t m (Or.inl hb) hf
  exact (hno k).1 t r hk

/-- The claim on those schedules. -/
theorem C33_returns_partial {pc : Nat → PC V} (h : Legal pc) (hr : ∀ t, pc t ≠ .rStart)
    (evs : List Ev) (hc : InterruptCalm (init pc) evs) (n t : Nat)
    (hn : (run (init pc) evs).pc n = .nDone) (hst : Stuck (run (init pc) evs)) (m : Bool)
    (ht : pc t = .wPush m) : Returned ((run (init pc) evs).pc t) := by
  rcases stuck_shape (inv_reach h evs).locks hst t with h1 | ⟨m', i, h1⟩
  · exact h1
  · have hk : ∀ evs : List Ev, ∀ st : St V, kind ((run st evs).pc t) = kind (st.pc t) := by
      intro evs
      induction evs with
      | nil => intro st; rfl
      | cons e es ih => intro st; rw [run_cons, ih, kind_act]
    have h2 := hk evs (init pc)
    rw [h1, show (init pc).pc t = .wPush m from ht] at h2
    simp only [kind, Kind.waiter.injEq] at h2
    obtain ⟨_, h3⟩ := h2
    subst h3
    exact absurd h1 (C33_no_sleep_partial h hr evs hc n hn t m')

/-- On every schedule: after an interrupt no interruptible waiter decides to wait. -/
theorem C33_no_new_wait {pc : Nat → PC V} (h : Legal pc) (hr : ∀ t, pc t ≠ .rStart)
    (evs : List Ev) (n : Nat) (hn : (run (init pc) evs).pc n = .nDone) (t : Nat) (st' : St V)
    (hst : step (run (init pc) evs) t = some st') (m : Bool) : st'.pc t ≠ .wWill m true := by
  intro hw
  obtain ⟨_, hws, _⟩ := (after_reach h hr evs).done n hn
  have hcov := (cover_reach h evs).reg t
  rw [hws] at hcov
  generalize run (init pc) evs = st at *
  unfold step at hst
  cases hp : st.pc t <;> rw [hp] at hst hcov <;> (try dsimp only at hst)
  case wLoop m' i =>
    split at hst <;> simp only [Option.some.injEq] at hst <;> subst hst <;> simp [setPC] at hw
    rename_i hc
    obtain ⟨_, h2⟩ := hw
    subst h2
    simp [registered] at hcov
    simp [hcov] at hc
  case nLoop rest =>
    cases rest <;> simp only [Option.some.injEq] at hst <;> subst hst <;> simp [setPC] at hw
  all_goals
    (try split at hst) <;> (try split at hst) <;>
      simp only [Option.some.injEq, reduceCtorEq] at hst <;> subst hst <;> simp [setPC] at hw

/-- The waiter blocks, then the interrupter runs. -/
def waitThenInterrupt : List Ev :=
  [.run 1, .run 1, .run 1, .run 1, .run 1, .run 0, .run 0, .run 0, .run 0, .run 1, .run 1, .run 1]

example : (run (init interruptWait) waitThenInterrupt).pc 0 = .nDone ∧
    (run (init interruptWait) (waitThenInterrupt.take 5)).pc 1 = .wBlocked false true ∧
    (run (init interruptWait) waitThenInterrupt).pc 1 = .wDone false true false := by decide

theorem calm_waitThenInterrupt : InterruptCalm (init interruptWait) waitThenInterrupt := by
  have key : ∀ (st : St Nat), (∀ p m i, st.pc p ≠ .wWill m i) → ∀ e : Ev,
      ∀ t u r p m i, e = Ev.run t → st.pc t = .nStored u r → st.pc p ≠ .wWill m i :=
    fun st h e t v r p m i _ _ => h p m i
  refine ⟨?_, ?_, ?_, ?_, ?_, ?_, ?_, ?_, ?_, ?_, ?_, ?_, trivial⟩
  case refine_5 =>
    intro t v r p m i he hp
    simp only [Ev.run.injEq] at he
    subst he
    exact absurd hp (by show PC.wWill false true ≠ _; simp)
  all_goals
    refine key _ ?_ _
    intro p m i
    match p with
    | 0 => intro h; cases h
    | 1 => intro h; cases h
    | 2 => intro h; cases h
    | _ + 3 => intro h; cases h

example : Stuck (run (init interruptWait) waitThenInterrupt) := by
  intro t
  match t with
  | 0 => rfl
  | 1 => rfl
  | 2 => rfl
  | _ + 3 => rfl

/-! ### C55 -/

/-- The full claim: when `wait_mut` returns the promise is no longer pending. It is false:
`C55_violated`. -/
def C55Full (V : Type) : Prop :=
  ∀ (pc : Nat → PC V), Legal pc → ∀ (evs : List Ev) (t : Nat) (e : Bool),
    (run (init pc) evs).pc t = .wDone true false e → (run (init pc) evs).seen.isSome = true

/-- The result has arrived before `wait_mut` is called: the state stays pending. -/
theorem C55_violated : ¬ C55Full Nat := by
  intro h
  have := h sendWaitMut legal_sendWaitMut
    [.run 0, .run 0, .run 0, .run 0, .run 0, .run 1, .run 1] 1 true (by decide)
  revert this
  decide

/-- The claim holds if the result was not there yet when `wait_mut` looked first, and the
state then carries the value that was sent. Missing: results that arrived earlier, for which
the claim is false. -/
theorem C55_wait_mut_partial {pc : Nat → PC V} (h : Legal pc) (evs : List Ev) (t : Nat)
    (ht : (run (init pc) evs).pc t = .wDone true false false) :
    ∃ s v, pc s = .sStart v ∧ (run (init pc) evs).seen = some v := by
  have hv := vals_reach h evs
  obtain ⟨v, h1⟩ := Option.isSome_iff_exists.1 (hv.taken t ht)
  obtain ⟨s, h2⟩ := hv.seen v h1
  exact ⟨s, v, h2, h1⟩

example : (run (init sendWaitMut)
    [.run 1, .run 1, .run 1, .run 1, .run 0, .run 0, .run 0, .run 0, .run 0, .run 1, .run 1, .run 1]).pc 1
    = .wDone true false false := by decide

end Verif.Promise.Race
