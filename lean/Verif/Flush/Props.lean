import Verif.Flush.Lemmas

/-
Property theorems C10 and C11. `run P s vs` is a run of the flush loop of
src/flush.rs with an arbitrary application `P`, interleaved in any way with what
other threads and systems do; it returns the final state and the history.
-/
namespace Verif.Flush

set_option linter.unusedSectionVars false

variable {W E : Type} [DecidableEq E]

/-- **C10**, conservation. For every application, every limit (also one that changes
over time), every schedule over any number of flushes: each entry that was waiting
or was newly requested has been executed exactly once or is still waiting – nothing
is lost, nothing is executed twice. Entries that the application itself purges
(targets of dropped series) are exempt. -/
theorem C10_no_work_lost (P : Prog W E) (s : St W E) (hw : WF s) (vs : List (Ev W E))
    (k : Kind) (e : E) (hp : .purged e ∉ (run P s vs).2) :
    pending k e s + newCount k e (run P s vs).2 =
      ranCount k e (run P s vs).2 + pending k e (run P s vs).1 := by
  have := run_conserve P vs s hw k e hp
  omega

/-- **C10**, order. What leaves a first-in-first-out list of the running flush
(executed, or kept by the limit for the next flush), followed by what is still in it,
is exactly what was in it followed by what entered it, in order. -/
theorem C10_in_order (P : Prog W E) (s : St W E) (hw : WF s) (vs : List (Ev W E))
    (k : Kind) (hk : Fifo k) (hp : noPurge (run P s vs).2) :
    leftOf k (run P s vs).2 ++ (run P s vs).1.roster.get k =
      s.roster.get k ++ enteredOf k (run P s vs).2 :=
  run_fifo P vs s hw k hk hp

/-- **C10**, the remainder. The store for the next flush is first-in-first-out too:
what has been taken up again, followed by what is still stored, is what was stored
followed by what was added (also by the limit), in order. -/
theorem C10_leftover_in_order (P : Prog W E) (s : St W E) (vs : List (Ev W E)) (k : Kind) :
    mergedOf k (run P s vs).2 ++ (run P s vs).1.later.get k =
      s.later.get k ++ storedOf k (run P s vs).2 :=
  run_later P vs s k

/-- **C10**, between flushes everything that is waiting is in the store for the next
flush. -/
theorem C10_all_kept (P : Prog W E) (s : St W E) (hw : WF s) (vs : List (Ev W E))
    (hi : (run P s vs).1.phase = .idle) (k : Kind) :
    (run P s vs).1.roster.get k = [] := by
  rw [(run_WF P vs s hw).1 hi]
  cases k <;> rfl

/-- **C10**, the limit limits: one flush with loop limit `l` executes at most
`max 1 (l - 1)` operations (none if `l = 0`). -/
theorem C10_limit_bounds_flush (P : Prog W E) (l : Nat)
    (hP : ∀ w, (P.params w).loopLimit = some l) (s : St W E) (hw : WF s) (hi : s.phase = .idle)
    (vs : List (Ev W E)) (he : .ended ∉ (run P s vs).2) :
    (ranOf .queue (run P s vs).2).length ≤ if l = 0 then 0 else max 1 (l - 1) := by
  have h0 : BoundInv l 0 s := by simp [BoundInv, hi]
  have h := run_bound P l hP vs 0 s hw h0 he
  simpa [opBound] using h.1

/-- **C10**, work is taken up again: a flush that starts with operations in the store
and ends has executed an operation, whatever the limit is, except for limit 0. -/
theorem C10_progress (P : Prog W E) (hP : ∀ w, (P.params w).loopLimit ≠ some 0)
    (s : St W E) (hi : s.phase = .idle) (hq : s.later.queue ≠ [])
    (vs : List (Ev W E)) (he : .ended ∈ (run P s vs).2) (hp : noPurge (run P s vs).2) :
    ranOf .queue (run P s vs).2 ≠ [] :=
  run_progress P hP vs s (by simpa [Ready, hi] using hq) hp he

/-! An application with two operations 0 and 1 that keep queueing each other, under
loop limit 3: after one flush the leftover is stored. -/

def pingPong (l : Option Nat) : Prog Unit Nat where
  params := fun _ => ⟨l, none⟩
  call := fun c _ =>
    match c with
    | .entry .queue e => ((), [.put .queue (1 - e)])
    | _ => ((), [])

def pingPongStart : St Unit Nat :=
  { (init () : St Unit Nat) with later := { queue := [0, 1] } }

example : WF pingPongStart := by simp [WF, pingPongStart, init]

/-- One flush under limit 3 runs two operations and keeps the other two. -/
example :
    let r := run (pingPong (some 3)) pingPongStart (List.replicate 29 .tick)
    ranOf .queue r.2 = [0, 1] ∧ r.1.phase = .idle ∧ r.1.later.queue = [1, 0] ∧
    Hist.ended ∈ r.2 ∧ ∀ e < 3, Hist.purged e ∉ r.2 := by decide

/-- **C10** fails for limit 0 as far as "taken up by the next flush" goes: flushes
come and go without executing anything. -/
theorem C10_limit_zero_violated :
    ¬ ∀ (P : Prog Unit Nat) (l : Nat), (∀ w, (P.params w).loopLimit = some l) →
      ∀ (s : St Unit Nat), s.phase = .idle → s.later.queue ≠ [] → ∀ vs,
        Hist.ended ∈ (run P s vs).2 → noPurge (run P s vs).2 → ranOf .queue (run P s vs).2 ≠ [] := by
  intro h
  have := h (pingPong (some 0)) 0 (fun _ => rfl) pingPongStart rfl (by decide)
    (List.replicate 9 .tick) (by decide) (by
      intro e
      have : (run (pingPong (some 0)) pingPongStart (List.replicate 9 .tick)).2 =
        [.merged .queue 0, .merged .queue 1, .kept .queue 0, .kept .queue 1, .ended] := by decide
      rw [this]
      simp)
  exact this (by decide)

/-- **C11** in full: within one collection at most `n` items are received. -/
def C11_full : Prop :=
  ∀ (P : Prog Unit Nat) (s : St Unit Nat) (n : Nat), s.phase = .recv → s.received = 0 →
    s.params.channelLimit = some n → ∀ vs, staysReceiving P s vs →
      (receivedOf (run P s vs).2).length ≤ n

/-- **C11** (partial): one collection receives at most `n + 1` items – one more than
the documented limit – whatever is sent meanwhile; over any run (of many collections)
items are received in the order they were sent and the rest stays in the channel. -/
theorem C11_channel_limit_partial (P : Prog W E) (s : St W E) (n : Nat)
    (hr : s.received = 0) (hn : s.params.channelLimit = some n)
    (vs : List (Ev W E)) (hs : staysReceiving P s vs) :
    (receivedOf (run P s vs).2).length ≤ n + 1 := by
  have := recv_bound P n vs s hn (by omega) hs
  omega

theorem C11_channel_order (P : Prog W E) (s : St W E) (vs : List (Ev W E)) :
    ∃ sent, receivedOf (run P s vs).2 ++ (run P s vs).1.chan = s.chan ++ sent :=
  run_chan P vs s

/-- Three items in the channel and limit 1: two are received in one collection. -/
def floodStart : St Unit Nat :=
  { (init () : St Unit Nat) with
    chan := [7, 8, 9], params := ⟨none, some 1⟩, phase := .recv }

example : floodStart.received = 0 ∧ floodStart.params.channelLimit = some 1 ∧
    staysReceiving (pingPong none) floodStart [.tick, .tick] ∧
    receivedOf (run (pingPong none) floodStart [.tick, .tick]).2 = [7, 8] ∧
    (run (pingPong none) floodStart [.tick, .tick]).1.chan = [9] := by
  refine ⟨rfl, rfl, ⟨rfl, rfl, trivial⟩, by decide, by decide⟩

/-- **C11** is false of the code in full: the loop checks the limit before counting
the item it has just received (src/flush.rs:196-209). -/
theorem C11_channel_limit_violated : ¬ C11_full := by
  intro h
  have := h (pingPong none) floodStart 1 rfl rfl rfl [.tick, .tick] ⟨rfl, rfl, trivial⟩
  revert this
  decide

/-! ### Where a collection begins and ends -/

/-- `garbage_cleanup` returns to one of the places that it is called from. -/
def RetOk : Phase → Prop
  | .cleanups r | .cancels r => r = .unblock ∨ r = .queueCheck ∨ r = .awake
  | _ => True

theorem runEntry_phase (P : Prog W E) (k : Kind) (e : E) (next : Phase) (s : St W E) :
    (runEntry P k e next s).1.phase = next := rfl

theorem tick_ret (P : Prog W E) (s : St W E) (h : RetOk s.phase) : RetOk (tick P s).1.phase := by
  unfold tick
  split <;> rename_i hph <;> rw [hph] at h
  · trivial
  · split
    · trivial
    · rename_i e rest _
      split
      · trivial
      · have := (perform_frame P (.item e) { s with chan := rest }).2.2.2
        simp only at this ⊢
        rw [this, hph]
        trivial
  · trivial
  · trivial
  · trivial
  · split <;> trivial
  · split <;> trivial
  · split <;> trivial
  · simp only
    split
    · trivial
    · exact .inl rfl
  · split
    · exact h
    · exact h
  · split
    · rcases h with h | h | h <;> simp only [h] <;> trivial
    · exact h
  · split
    · trivial
    · exact .inl rfl
  · split
    · trivial
    · exact .inr (.inl rfl)
  · simp only; split <;> trivial
  · split
    · trivial
    · exact .inr (.inr rfl)

theorem step_env_phase (P : Prog W E) (s : St W E) (f : W → W) (l : List (Kind × E))
    (c w : List E) : (step P s (.env f l c w)).1.phase = s.phase :=
  (step_env_frame l { s with world := f s.world, chan := s.chan ++ c, wake := s.wake ++ w }).2.1

theorem run_ret (P : Prog W E) (vs : List (Ev W E)) :
    ∀ s : St W E, RetOk s.phase → RetOk (run P s vs).1.phase := by
  induction vs with
  | nil => exact fun _ h => h
  | cons v vs ih =>
    intro s h
    simp only [run]
    refine ih _ ?_
    cases v with
    | tick => exact tick_ret P s h
    | env f l c w => rw [step_env_phase]; exact h

/-- **C11**, each collection counts anew: whenever the flush begins to receive, whatever has
happened before, nothing has been counted yet. -/
theorem C11_collection_begins (P : Prog W E) (w : W) (vs : List (Ev W E)) (v : Ev W E)
    (h : (run P (init w) vs).1.phase ≠ .recv)
    (h' : (step P (run P (init w) vs).1 v).1.phase = .recv) :
    (step P (run P (init w) vs).1 v).1.received = 0 := by
  have hr := run_ret P vs (init w) trivial
  generalize (run P (init w) vs).1 = s at h h' hr
  cases v with
  | env f l c w => rw [step_env_phase] at h'; exact absurd h' h
  | tick =>
    simp only [step] at h' ⊢
    unfold tick at h' ⊢
    revert h'
    split <;> rename_i hph <;> rw [hph] at hr
    · exact fun _ => rfl
    · exact absurd hph h
    · nofun
    · nofun
    · nofun
    · split <;> nofun
    · split <;> nofun
    · split <;> nofun
    · simp only; split <;> nofun
    · split <;> nofun
    · split
      · intro h'
        simp only at h'
        rcases hr with hr | hr | hr <;> rw [hr] at h' <;> cases h'
      · nofun
    · split <;> nofun
    · split <;> nofun
    · simp only; split <;> nofun
    · split
      · exact fun _ => rfl
      · nofun

theorem recv_full (P : Prog W E) (n : Nat) (vs : List (Ev W E)) (s : St W E)
    (hn : s.params.channelLimit = some n) (hr : s.received ≤ n) (hp : s.phase = .recv)
    (hs : staysReceiving P s vs) (hout : (run P s vs).1.phase ≠ .recv) :
    (receivedOf (run P s vs).2).length + s.received = n + 1 ∨
    ∃ pre, vs = pre ++ [.tick] ∧ (run P s pre).1.chan = [] := by
  induction vs generalizing s with
  | nil => exact absurd hp hout
  | cons v vs ih =>
    obtain ⟨_, hs'⟩ := hs
    have more : ∀ k, (step P s v).1.params = s.params → (step P s v).1.received = s.received + k →
        (receivedOf (step P s v).2).length = k → s.received + k ≤ n →
        (step P s v).1.phase = .recv →
        (receivedOf (run P s (v :: vs)).2).length + s.received = n + 1 ∨
        ∃ pre, v :: vs = pre ++ [.tick] ∧ (run P s pre).1.chan = [] := by
      intro k e1 e2 e3 e4 e5
      rcases ih _ (by rw [e1]; exact hn) (by omega) e5 hs' hout with h | ⟨pre, h1, h2⟩
      · left
        simp only [run, receivedOf_append, List.length_append]
        omega
      · exact .inr ⟨v :: pre, by rw [h1]; rfl, h2⟩
    cases v with
    | env f l c w =>
      obtain ⟨_, h5, _, _, _, h6, h7, _, _, _, _, h12, _⟩ := step_env_frame l
        { s with world := f s.world, chan := s.chan ++ c, wake := s.wake ++ w }
      exact more 0 h7 h6 (by
        have h12' : receivedOf (step P s (.env f l c w)).2 = [] := h12
        rw [h12']; rfl) hr (h5.trans hp)
    | tick =>
      obtain ⟨w, ros, lat, ch, wk, lc, rc, pa, ph⟩ := s
      simp only at hp hn hr
      subst hp
      cases ch with
      | nil =>
        cases vs with
        | nil => exact .inr ⟨[], rfl, rfl⟩
        | cons u us => exact absurd hs'.1 (by simp [step, tick])
      | cons x rest =>
        have h := perform_frame P (.item x) (⟨w, ros, lat, rest, wk, lc, rc, pa, .recv⟩ : St W E)
        have h1 := perform_chan P (.item x) (⟨w, ros, lat, rest, wk, lc, rc, pa, .recv⟩ : St W E)
        have a : ∀ l : List (Hist E), receivedOf (.received x :: l) = x :: receivedOf l := by
          intro l; simp [receivedOf]
        by_cases hr' : n ≤ rc
        · cases vs with
          | nil =>
            left
            simp only [run, step, tick, hn, reached, hr', decide_true, if_true, List.append_nil, a,
              h1.1, List.length_singleton]
            omega
          | cons u us => exact absurd hs'.1 (by simp [step, tick, hn, reached, hr'])
        · refine more 1 ?_ ?_ ?_ (by simp only; omega) ?_ <;>
            simp only [step, tick, hn, reached, hr', decide_false, Bool.false_eq_true, if_false, a,
              h1.1, List.length_singleton]
          · exact h.2.2.1
          · exact h.2.2.2

/-- **C11**, a collection is not cut short: it ends with the channel empty, or after `n + 1`
items. -/
theorem C11_collection_ends (P : Prog W E) (s : St W E) (n : Nat) (hp : s.phase = .recv)
    (hr : s.received = 0) (hn : s.params.channelLimit = some n) (vs : List (Ev W E))
    (hs : staysReceiving P s vs) (hout : (run P s vs).1.phase ≠ .recv) :
    (receivedOf (run P s vs).2).length = n + 1 ∨
    ∃ pre, vs = pre ++ [.tick] ∧ (run P s pre).1.chan = [] := by
  have := recv_full P n vs s hn (by omega) hp hs hout
  rwa [hr] at this

example : floodStart.phase = .recv ∧
    staysReceiving (pingPong none) floodStart [.tick, .tick] ∧
    (run (pingPong none) floodStart [.tick, .tick]).1.phase ≠ .recv ∧
    (receivedOf (run (pingPong none) floodStart [.tick, .tick]).2).length = 2 :=
  ⟨rfl, ⟨rfl, rfl, trivial⟩, by decide, by decide⟩

end Verif.Flush
