import Verif.Poll.Model

/-
Property theorems of C125.
-/
namespace Verif.Poll

variable {σ : Type}

/-- How many futures were polled. -/
def State.polls (s : State σ) : Nat := s.started.length + s.resumed.length

/-- What was taken from a channel and what is in it, in order, is what was put into it. -/
def Whole (s : State σ) : Prop :=
  s.started ++ s.cancelling = s.sent ∧ s.resumed ++ s.runnable = s.woken

/-- The full statement of C125: with a limit a poll ends, and polls no more futures than this. -/
def C125_full : Prop :=
  ∀ (b : Behaviour Nat) (l : Nat) (s : State Nat), Whole s →
    ∃ fuel s', poll b (some l) fuel s = some s' ∧ s'.polls ≤ s.polls + l

/-! ### Polling one future -/

/-- Sending and waking only add. -/
structure Added (s s' : State σ) : Prop where
  started : s'.started = s.started
  resumed : s'.resumed = s.resumed
  sent : ∃ l, s'.sent = s.sent ++ l ∧ s'.cancelling = s.cancelling ++ l
  woken : ∃ l, s'.woken = s.woken ++ l ∧ s'.runnable = s.runnable ++ l

theorem Added.trans {s s' s'' : State σ} (h : Added s s') (h' : Added s' s'') : Added s s'' := by
  obtain ⟨l1, a1, a2⟩ := h.sent
  obtain ⟨l2, b1, b2⟩ := h'.sent
  obtain ⟨l3, c1, c2⟩ := h.woken
  obtain ⟨l4, d1, d2⟩ := h'.woken
  exact ⟨h'.started.trans h.started, h'.resumed.trans h.resumed,
    ⟨l1 ++ l2, by rw [b1, a1, List.append_assoc], by rw [b2, a2, List.append_assoc]⟩,
    ⟨l3 ++ l4, by rw [d1, c1, List.append_assoc], by rw [d2, c2, List.append_assoc]⟩⟩

theorem added_send (s : State σ) (i : Nat) : Added s (send s i) :=
  ⟨rfl, rfl, ⟨[i], rfl, rfl⟩, ⟨[], by simp [send], by simp [send]⟩⟩

theorem added_wake (s : State σ) (i : Nat) : Added s (wake s i) :=
  ⟨rfl, rfl, ⟨[], by simp [wake], by simp [wake]⟩, ⟨[i], rfl, rfl⟩⟩

theorem added_refl {s s' : State σ} (h1 : s'.started = s.started) (h2 : s'.resumed = s.resumed)
    (h3 : s'.sent = s.sent) (h4 : s'.woken = s.woken) (h5 : s'.cancelling = s.cancelling)
    (h6 : s'.runnable = s.runnable) : Added s s' :=
  ⟨h1, h2, ⟨[], by simp [h3], by simp [h5]⟩, ⟨[], by simp [h4], by simp [h6]⟩⟩

theorem added_foldl {f : State σ → Nat → State σ} (hf : ∀ s i, Added s (f s i)) (l : List Nat)
    (s : State σ) : Added s (l.foldl f s) := by
  induction l generalizing s with
  | nil => exact added_refl rfl rfl rfl rfl rfl rfl
  | cons i l ih => exact (hf s i).trans (ih _)

theorem added_visit (b : Behaviour σ) (s : State σ) (i : Nat) : Added s (visit b s i) := by
  unfold visit
  refine Added.trans (s' := { s with world := (b s.world i).1 })
    (added_refl rfl rfl rfl rfl rfl rfl) ?_
  exact (added_foldl added_send _ _).trans (added_foldl added_wake _ _)

theorem Whole.added {s s' : State σ} (h : Whole s) (ha : Added s s') : Whole s' := by
  obtain ⟨l1, a1, a2⟩ := ha.sent
  obtain ⟨l2, b1, b2⟩ := ha.woken
  refine ⟨?_, ?_⟩
  · rw [ha.started, a1, a2, ← List.append_assoc, h.1]
  · rw [ha.resumed, b1, b2, ← List.append_assoc, h.2]

/-! ### The loops -/

theorem startLoop_spec (b : Behaviour σ) (limit : Option Nat) (fuel count : Nat) (s s' : State σ)
    (h : startLoop b limit fuel count s = some s') :
    (Whole s → Whole s') ∧ s'.resumed = s.resumed ∧ (∃ l, s'.sent = s.sent ++ l) ∧
      (∃ l, s'.woken = s.woken ++ l) ∧ (∃ l, s'.runnable = s.runnable ++ l) ∧
      s.started.length ≤ s'.started.length ∧
      (∀ l, limit = some l → s'.started.length ≤ s.started.length + max (l - count) 1) ∧
      (s'.cancelling = [] ∨ ∃ l, limit = some l ∧
        s.started.length + max (l - count) 1 ≤ s'.started.length) := by
  induction fuel generalizing count s with
  | zero => simp [startLoop] at h
  | succ fuel ih =>
    unfold startLoop at h
    cases hc : s.cancelling with
    | nil =>
      rw [hc] at h
      simp only [Option.some.injEq] at h
      subst h
      exact ⟨id, rfl, ⟨[], by simp⟩, ⟨[], by simp⟩, ⟨[], by simp⟩, Nat.le_refl _,
        fun l _ => by omega, Or.inl hc⟩
    | cons i is =>
      rw [hc] at h
      simp only at h
      have hv := added_visit b { s with cancelling := is, started := s.started ++ [i] } i
      have h0 : Whole s → Whole { s with cancelling := is, started := s.started ++ [i] } := by
        rintro ⟨h1, h2⟩
        refine ⟨?_, h2⟩
        rw [hc] at h1
        simp only [← h1]
        simp
      obtain ⟨l1, a1, a2⟩ := hv.sent
      obtain ⟨l2, b1, b2⟩ := hv.woken
      have hst := hv.started
      have hre := hv.resumed
      simp only at a1 a2 b1 b2 hst hre
      have hlen : (visit b { s with cancelling := is, started := s.started ++ [i] } i).started.length =
          s.started.length + 1 := by rw [hst]; simp
      split at h
      · rename_i hr
        simp only [Option.some.injEq] at h
        subst h
        refine ⟨fun hw => (h0 hw).added hv, hre, ⟨l1, a1⟩, ⟨l2, b1⟩, ⟨l2, b2⟩, by omega,
          fun l hl => by omega, Or.inr ?_⟩
        cases limit with
        | none => simp [reached] at hr
        | some l =>
          simp only [reached, decide_eq_true_eq] at hr
          exact ⟨l, rfl, by omega⟩
      · rename_i hr
        obtain ⟨h1, h2, ⟨l3, h3⟩, ⟨l4, h4⟩, ⟨l5, h5⟩, h6, h7, h8⟩ := ih (count + 1) _ h
        refine ⟨fun hw => h1 ((h0 hw).added hv), h2.trans hre,
          ⟨l1 ++ l3, by rw [h3, a1, List.append_assoc]⟩,
          ⟨l2 ++ l4, by rw [h4, b1, List.append_assoc]⟩,
          ⟨l2 ++ l5, by rw [h5, b2, List.append_assoc]⟩, by omega, fun l hl => ?_, ?_⟩
        · have := h7 l hl
          subst hl
          simp only [reached, decide_eq_true_eq] at hr
          omega
        · rcases h8 with h8 | ⟨l, hl, h8⟩
          · exact Or.inl h8
          · refine Or.inr ⟨l, hl, ?_⟩
            omega

theorem runLoop_spec (b : Behaviour σ) (limit : Option Nat) (fuel count : Nat) (s s' : State σ)
    (h : runLoop b limit fuel count s = some s') :
    (Whole s → Whole s') ∧ s'.started = s.started ∧ (∃ l, s'.sent = s.sent ++ l) ∧
      (∃ l, s'.woken = s.woken ++ l) ∧ (∃ l, s'.cancelling = s.cancelling ++ l) ∧
      s.resumed.length ≤ s'.resumed.length ∧
      (∀ l, limit = some l → s'.resumed.length ≤ s.resumed.length + max (l - count) 1) ∧
      (s'.runnable = [] ∨ ∃ l, limit = some l ∧
        s.resumed.length + max (l - count) 1 ≤ s'.resumed.length) := by
  induction fuel generalizing count s with
  | zero => simp [runLoop] at h
  | succ fuel ih =>
    unfold runLoop at h
    cases hc : s.runnable with
    | nil =>
      rw [hc] at h
      simp only [Option.some.injEq] at h
      subst h
      exact ⟨id, rfl, ⟨[], by simp⟩, ⟨[], by simp⟩, ⟨[], by simp⟩, Nat.le_refl _,
        fun l _ => by omega, Or.inl hc⟩
    | cons i is =>
      rw [hc] at h
      simp only at h
      have hv := added_visit b { s with runnable := is, resumed := s.resumed ++ [i] } i
      have h0 : Whole s → Whole { s with runnable := is, resumed := s.resumed ++ [i] } := by
        rintro ⟨h1, h2⟩
        refine ⟨h1, ?_⟩
        rw [hc] at h2
        simp only [← h2]
        simp
      obtain ⟨l1, a1, a2⟩ := hv.sent
      obtain ⟨l2, b1, b2⟩ := hv.woken
      have hst := hv.started
      have hre := hv.resumed
      simp only at a1 a2 b1 b2 hst hre
      have hlen : (visit b { s with runnable := is, resumed := s.resumed ++ [i] } i).resumed.length =
          s.resumed.length + 1 := by rw [hre]; simp
      split at h
      · rename_i hr
        simp only [Option.some.injEq] at h
        subst h
        refine ⟨fun hw => (h0 hw).added hv, hst, ⟨l1, a1⟩, ⟨l2, b1⟩, ⟨l1, a2⟩, by omega,
          fun l hl => by omega, Or.inr ?_⟩
        cases limit with
        | none => simp [reached] at hr
        | some l =>
          simp only [reached, decide_eq_true_eq] at hr
          exact ⟨l, rfl, by omega⟩
      · rename_i hr
        obtain ⟨h1, h2, ⟨l3, h3⟩, ⟨l4, h4⟩, ⟨l5, h5⟩, h6, h7, h8⟩ := ih (count + 1) _ h
        refine ⟨fun hw => h1 ((h0 hw).added hv), h2.trans hst,
          ⟨l1 ++ l3, by rw [h3, a1, List.append_assoc]⟩,
          ⟨l2 ++ l4, by rw [h4, b1, List.append_assoc]⟩,
          ⟨l1 ++ l5, by rw [h5, a2, List.append_assoc]⟩, by omega, fun l hl => ?_, ?_⟩
        · have := h7 l hl
          subst hl
          simp only [reached, decide_eq_true_eq] at hr
          omega
        · rcases h8 with h8 | ⟨l, hl, h8⟩
          · exact Or.inl h8
          · refine Or.inr ⟨l, hl, ?_⟩
            omega

theorem startLoop_some (b : Behaviour σ) (l fuel count : Nat) (s : State σ)
    (hf : max (l - count) 1 ≤ fuel) : ∃ s', startLoop b (some l) fuel count s = some s' := by
  induction fuel generalizing count s with
  | zero => omega
  | succ fuel ih =>
    unfold startLoop
    cases hc : s.cancelling with
    | nil => exact ⟨s, rfl⟩
    | cons i is =>
      simp only
      split
      · exact ⟨_, rfl⟩
      · rename_i hr
        simp only [reached, decide_eq_true_eq] at hr
        exact ih _ _ (by omega)

theorem runLoop_some (b : Behaviour σ) (l fuel count : Nat) (s : State σ)
    (hf : max (l - count) 1 ≤ fuel) : ∃ s', runLoop b (some l) fuel count s = some s' := by
  induction fuel generalizing count s with
  | zero => omega
  | succ fuel ih =>
    unfold runLoop
    cases hc : s.runnable with
    | nil => exact ⟨s, rfl⟩
    | cons i is =>
      simp only
      split
      · exact ⟨_, rfl⟩
      · rename_i hr
        simp only [reached, decide_eq_true_eq] at hr
        exact ih _ _ (by omega)

theorem poll_parts {b : Behaviour σ} {limit : Option Nat} {fuel : Nat} {s s' : State σ}
    (h : poll b limit fuel s = some s') : ∃ m, startLoop b limit fuel 0 s = some m ∧
      runLoop b limit fuel 0 m = some s' := by
  unfold poll at h
  cases hm : startLoop b limit fuel 0 s with
  | none => rw [hm] at h; simp at h
  | some m => rw [hm] at h; exact ⟨m, rfl, h⟩

/-! ### C125 -/

/-- With a limit a poll ends, whatever the futures do. -/
theorem C125_ends (b : Behaviour σ) (l : Nat) (s : State σ) :
    ∃ s', ∀ fuel, max l 1 ≤ fuel → poll b (some l) fuel s = some s' := by
  have mono1 : ∀ fuel count (s s' : State σ), startLoop b (some l) fuel count s = some s' →
      ∀ k, startLoop b (some l) (fuel + k) count s = some s' := by
    intro fuel
    induction fuel with
    | zero => intro count s s' h; simp [startLoop] at h
    | succ fuel ih =>
      intro count s s' h k
      rw [show fuel + 1 + k = (fuel + k) + 1 by omega]
      unfold startLoop at h ⊢
      cases hc : s.cancelling with
      | nil => rw [hc] at h; exact h
      | cons i is =>
        rw [hc] at h
        simp only at h ⊢
        split
        · rename_i hr; rw [if_pos hr] at h; exact h
        · rename_i hr; rw [if_neg hr] at h; exact ih _ _ _ h k
  have mono2 : ∀ fuel count (s s' : State σ), runLoop b (some l) fuel count s = some s' →
      ∀ k, runLoop b (some l) (fuel + k) count s = some s' := by
    intro fuel
    induction fuel with
    | zero => intro count s s' h; simp [runLoop] at h
    | succ fuel ih =>
      intro count s s' h k
      rw [show fuel + 1 + k = (fuel + k) + 1 by omega]
      unfold runLoop at h ⊢
      cases hc : s.runnable with
      | nil => rw [hc] at h; exact h
      | cons i is =>
        rw [hc] at h
        simp only at h ⊢
        split
        · rename_i hr; rw [if_pos hr] at h; exact h
        · rename_i hr; rw [if_neg hr] at h; exact ih _ _ _ h k
  obtain ⟨m, hm⟩ := startLoop_some b l (max l 1) 0 s (by omega)
  obtain ⟨s', hs'⟩ := runLoop_some b l (max l 1) 0 m (by omega)
  refine ⟨s', fun fuel hf => ?_⟩
  obtain ⟨k, rfl⟩ := Nat.exists_eq_add_of_le hf
  unfold poll
  rw [mono1 _ _ _ _ hm k]
  exact mono2 _ _ _ _ hs' k

/-- The limit holds for the two channels separately, and one future of each is polled even if it
is 0. -/
theorem C125_bound_partial (b : Behaviour σ) (l fuel : Nat) (s s' : State σ)
    (h : poll b (some l) fuel s = some s') :
    s'.started.length ≤ s.started.length + max l 1 ∧
    s'.resumed.length ≤ s.resumed.length + max l 1 ∧ s'.polls ≤ s.polls + 2 * max l 1 := by
  obtain ⟨m, h1, h2⟩ := poll_parts h
  have a := startLoop_spec b _ fuel 0 s m h1
  have c := runLoop_spec b _ fuel 0 m s' h2
  have h3 := a.2.2.2.2.2.2.1 l rfl
  have h4 := c.2.2.2.2.2.2.1 l rfl
  have h5 := a.2.1
  have h6 := c.2.1
  unfold State.polls
  rw [h6]
  rw [h5] at h4
  simp only [Nat.sub_zero] at h3 h4
  omega

/-- Nothing that was sent or woken is lost or polled twice for it, and each channel is served in
order, with and without a limit. -/
theorem C125_order (b : Behaviour σ) (limit : Option Nat) (fuel : Nat) (world : σ) (es : List Ev)
    (s : State σ) (h : run b limit fuel (fresh world) es = some s) :
    s.started ++ s.cancelling = s.sent ∧ s.resumed ++ s.runnable = s.woken := by
  have key : ∀ es (s s' : State σ), Whole s → run b limit fuel s es = some s' → Whole s' := by
    intro es
    induction es with
    | nil => intro s s' hw h; simp only [run, Option.some.injEq] at h; subst h; exact hw
    | cons e es ih =>
      intro s s' hw h
      unfold run at h
      cases hs : step b limit fuel s e with
      | none => rw [hs] at h; simp at h
      | some m =>
        rw [hs] at h
        refine ih m s' ?_ h
        cases e with
        | send i =>
          simp only [step, Option.some.injEq] at hs
          subst hs
          exact hw.added (added_send s i)
        | wake i =>
          simp only [step, Option.some.injEq] at hs
          subst hs
          exact hw.added (added_wake s i)
        | poll =>
          obtain ⟨m', h1, h2⟩ := poll_parts hs
          exact (runLoop_spec b _ fuel 0 m' m h2).1 ((startLoop_spec b _ fuel 0 s m' h1).1 hw)
  exact key es _ s ⟨rfl, rfl⟩ h

/-- A poll serves the futures that wait up to the limit, or all of them. -/
theorem C125_serves (b : Behaviour σ) (limit : Option Nat) (fuel : Nat) (s s' : State σ)
    (hw : Whole s) (h : poll b limit fuel s = some s') :
    (∀ j i, s.woken[j]? = some i → (∀ l, limit = some l → j < s.resumed.length + max l 1) →
      s'.resumed[j]? = some i) ∧
    ∀ j i, s.sent[j]? = some i → (∀ l, limit = some l → j < s.started.length + max l 1) →
      s'.started[j]? = some i := by
  obtain ⟨m, h1, h2⟩ := poll_parts h
  have a := startLoop_spec b _ fuel 0 s m h1
  have c := runLoop_spec b _ fuel 0 m s' h2
  obtain ⟨a1, a2, ⟨l1, a3⟩, ⟨l2, a4⟩, _, _, _, a8⟩ := a
  obtain ⟨c1, c2, ⟨l3, c3⟩, ⟨l4, c4⟩, _, _, _, c8⟩ := c
  have hm := a1 hw
  have hs := c1 hm
  refine ⟨?_, ?_⟩
  · intro j i hj hl
    have hlt : j < s.woken.length := (List.getElem?_eq_some_iff.1 hj).1
    have hj' : s'.woken[j]? = some i := by
      rw [c4, a4, List.append_assoc, List.getElem?_append_left hlt]
      exact hj
    have hr : j < s'.resumed.length := by
      rcases c8 with h8 | ⟨l, hl', h8⟩
      · have := hs.2
        rw [h8, List.append_nil] at this
        rw [this]
        exact (List.getElem?_eq_some_iff.1 hj').1
      · have := hl l hl'
        rw [a2] at h8
        simp only [Nat.sub_zero] at h8
        omega
    rw [← hs.2, List.getElem?_append_left hr] at hj'
    exact hj'
  · intro j i hj hl
    have hlt : j < s.sent.length := (List.getElem?_eq_some_iff.1 hj).1
    have hj' : m.sent[j]? = some i := by
      rw [a3, List.getElem?_append_left hlt]
      exact hj
    have hr : j < m.started.length := by
      rcases a8 with h8 | ⟨l, hl', h8⟩
      · have := hm.1
        rw [h8, List.append_nil] at this
        rw [this]
        exact (List.getElem?_eq_some_iff.1 hj').1
      · have := hl l hl'
        simp only [Nat.sub_zero] at h8
        omega
    rw [c2]
    rw [← hm.1, List.getElem?_append_left hr] at hj'
    exact hj'

/-- Repeated polls reach every future that was woken: after `k` polls the first `k` times the limit
have been resumed, whatever was woken in the meantime. -/
theorem C125_reaches (b : Behaviour σ) (l fuel : Nat) (k : Nat) (s s' : State σ) (hw : Whole s)
    (h : run b (some l) fuel s (List.replicate k .poll) = some s') (j i : Nat)
    (hj : s.woken[j]? = some i) (hk : j < s.resumed.length + k * max l 1) :
    s'.resumed[j]? = some i := by
  induction k generalizing s with
  | zero =>
    simp only [List.replicate_zero, run, Option.some.injEq] at h
    subst h
    have hr : j < s.resumed.length := by omega
    rw [← hw.2, List.getElem?_append_left hr] at hj
    exact hj
  | succ k ih =>
    rw [List.replicate_succ] at h
    unfold run at h
    cases hs : step b (some l) fuel s .poll with
    | none => rw [hs] at h; simp at h
    | some m =>
      rw [hs] at h
      obtain ⟨m', h1, h2⟩ := poll_parts (show poll b (some l) fuel s = some m from hs)
      obtain ⟨a1, a2, _, ⟨l2, a4⟩, _⟩ := startLoop_spec b _ fuel 0 s m' h1
      obtain ⟨c1, _, _, ⟨l4, c4⟩, _, _, _, c8⟩ := runLoop_spec b _ fuel 0 m' m h2
      have hwm := c1 (a1 hw)
      have hlt : j < s.woken.length := (List.getElem?_eq_some_iff.1 hj).1
      have hj' : m.woken[j]? = some i := by
        rw [c4, a4, List.append_assoc, List.getElem?_append_left hlt]
        exact hj
      refine ih m hwm h hj' ?_
      rcases c8 with h8 | ⟨l', hl', h8⟩
      · have := hwm.2
        rw [h8, List.append_nil] at this
        rw [this]
        have := (List.getElem?_eq_some_iff.1 hj').1
        omega
      · simp only [Option.some.injEq] at hl'
        subst hl'
        rw [a2] at h8
        simp only [Nat.sub_zero] at h8
        rw [Nat.succ_mul] at hk
        omega

/-- Without a limit a poll that ends has left no future that is awake. -/
theorem C125_unlimited (b : Behaviour σ) (fuel : Nat) (s s' : State σ)
    (h : poll b none fuel s = some s') : s'.runnable = [] := by
  obtain ⟨m, _, h2⟩ := poll_parts h
  rcases (runLoop_spec b _ fuel 0 m s' h2).2.2.2.2.2.2.2 with h8 | ⟨l, hl, _⟩
  · exact h8
  · cases hl

/-! ### Witnesses -/

/-- Futures that do nothing, except that 7 wakes itself and 8 sends the cancelling task 9. -/
def some789 : Behaviour Nat := fun n i =>
  (n + 1, if i = 8 then [9] else [], if i = 7 then [7] else [])

def busy : List Ev := [.send 1, .send 2, .wake 7, .wake 8, .wake 3, .wake 4]

/-- **C125** is false in full: a poll with the limit 2 polls four futures, and one with the limit 0
polls two. -/
theorem C125_limit_violated : ¬ C125_full ∧
    ((run some789 (some 2) 9 (fresh 0) (busy ++ [.poll])).map State.polls = some 4) ∧
    ((run some789 (some 0) 9 (fresh 0) (busy ++ [.poll])).map State.polls = some 2) := by
  refine ⟨fun h => ?_, by decide, by decide⟩
  obtain ⟨fuel, s', h1, h2⟩ := h some789 2 ⟨0, [1, 2], [7, 8, 3, 4], [1, 2], [7, 8, 3, 4], [], []⟩
    ⟨rfl, rfl⟩
  have hserve := C125_serves some789 (some 2) fuel _ s' ⟨rfl, rfl⟩ h1
  have e1 := hserve.1 1 8 rfl (by intro l hl; cases hl; decide)
  have e2 := hserve.2 1 2 rfl (by intro l hl; cases hl; decide)
  have e3 := (List.getElem?_eq_some_iff.1 e1).1
  have e4 := (List.getElem?_eq_some_iff.1 e2).1
  unfold State.polls at h2
  simp at h2
  omega

/-- A future that wakes itself: without a limit the poll does not end. -/
theorem C125_self_wake (fuel : Nat) : poll some789 none fuel (wake (fresh 0) 7) = none := by
  have key : ∀ fuel count n r w, runLoop some789 none fuel count
      (⟨n, [], [7], [], w, [], r⟩ : State Nat) = none := by
    intro fuel
    induction fuel with
    | zero => intros; rfl
    | succ fuel ih =>
      intro count n r w
      unfold runLoop
      simp only [visit, some789, reached, wake, List.foldl_cons, List.foldl_nil, if_true,
        show ¬ (7 : Nat) = 8 by decide, if_false, List.nil_append, Bool.false_eq_true]
      exact ih _ _ _ _
  cases fuel with
  | zero => rfl
  | succ fuel => exact key _ _ _ _ _

/-- The hypotheses are met: polling three times with the limit 2 resumes the future 4, although 7
wakes itself every time, and then also starts what 8 has sent. -/
example : (run some789 (some 2) 9 (fresh 0) (busy ++ [.poll, .poll, .poll])).map
    (fun s => (s.started, s.resumed, s.cancelling, s.runnable)) =
    some ([1, 2, 9], [7, 8, 3, 4, 7, 7], [], [7]) := by decide

example : (run some789 none 9 (fresh 0) ([.wake 8, .wake 3, .poll])).map
    (fun s => (s.started, s.resumed, s.cancelling, s.runnable)) =
    some ([], [8, 3], [9], []) := by decide

end Verif.Poll
