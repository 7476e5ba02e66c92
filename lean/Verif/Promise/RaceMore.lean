/- More invariants of the races of a promise: values, polls and interrupts. -/
import Verif.Promise.RaceLemmas

set_option linter.unusedSimpArgs false
set_option linter.unusedVariables false

namespace Verif.Promise.Race

variable {V : Type}

/-- Another thread stays where it is, unless it is woken. -/
theorem step_other {st st' : St V} {t u : Nat} (hs : step st t = some st') (e : u ≠ t) :
    st'.pc u = st.pc u ∨ st'.pc u = awaken (st.pc u) := by
  unfold step at hs
  split at hs <;> rename_i hp
  all_goals (try split at hs) <;> (try split at hs) <;>
    simp only [Option.some.injEq, reduceCtorEq] at hs
  all_goals subst hs
  all_goals simp [setPC, notifyAll, e]

/-- The value a sender is about to write. -/
def carried : PC V → Option V
  | .sStart v | .sLocked v => some v
  | _ => none

/-- Only values of senders are around, and a waiter without interrupter returns when there
is one. -/
structure Vals (pc0 : Nat → PC V) (st : St V) : Prop where
  carried : ∀ s v, carried (st.pc s) = some v → pc0 s = .sStart v
  result : ∀ v, st.result = some v → ∃ s, pc0 s = .sStart v
  seen : ∀ v, st.seen = some v → ∃ s, pc0 s = .sStart v
  got : ∀ t m, st.pc t = .wGot m false → st.result.isSome = true
  done : ∀ t m e, st.pc t = .wDone m false e → st.result.isSome = true ∨ st.seen.isSome = true
  taken : ∀ t, st.pc t = .wDone true false false → st.seen.isSome = true
  ready : ∀ t, st.pc t = .pReady → st.seen.isSome = true

theorem vals_quiet {pc0 : Nat → PC V} {st st' : St V} (h : Vals pc0 st)
    (hr : ∀ v, st'.result = some v → ∃ s, pc0 s = .sStart v)
    (hse : ∀ v, st'.seen = some v → st.seen = some v ∨ st.result = some v)
    (hse2 : st.seen.isSome = true → st'.seen.isSome = true)
    (hr2 : st.result.isSome = true → st'.result.isSome = true ∨ st'.seen.isSome = true)
    (hc : ∀ s v, Race.carried (st'.pc s) = some v → Race.carried (st.pc s) = some v)
    (hg : ∀ u m, st'.pc u = .wGot m false → st'.result.isSome = true)
    (hd : ∀ u m e, st'.pc u = .wDone m false e → st.pc u = .wDone m false e ∨
      ((e = false → m = true → st'.seen.isSome = true) ∧ (st'.result.isSome = true ∨ st'.seen.isSome = true)))
    (hre : ∀ u, st'.pc u = .pReady → st.pc u = .pReady ∨ st'.seen.isSome = true) :
    Vals pc0 st' := by
  refine ⟨fun s v x => h.carried s v (hc s v x), hr, ?_, hg, ?_, ?_, ?_⟩
  · intro v hv
    rcases hse v hv with h1 | h1
    · exact h.seen v h1
    · exact h.result v h1
  · intro t m e hp
    rcases hd t m e hp with h1 | ⟨_, h1⟩
    · rcases h.done t m e h1 with h2 | h2
      · exact hr2 h2
      · exact Or.inr (hse2 h2)
    · exact h1
  · intro t hp
    rcases hd t true false hp with h1 | ⟨h1, _⟩
    · exact hse2 (h.taken t h1)
    · exact h1 rfl rfl
  · intro t hp
    rcases hre t hp with h1 | h1
    · exact hse2 (h.ready t h1)
    · exact h1

theorem vals_step {pc0 : Nat → PC V} (st st' : St V) (t : Nat) (hl : Locks st)
    (hk : Kinds st) (h : Vals pc0 st) (hs : step st t = some st') : Vals pc0 st' := by
  have hother : ∀ u, u ≠ t → st'.pc u = st.pc u ∨ st'.pc u = awaken (st.pc u) :=
    fun u e => step_other hs e
  have car : ∀ u, u ≠ t → carried (st'.pc u) = carried (st.pc u) := by
    intro u e
    rcases hother u e with h1 | h1 <;> rw [h1]
    cases st.pc u <;> rfl
  have got : ∀ u m, u ≠ t → st'.pc u = .wGot m false → st.pc u = .wGot m false := by
    intro u m e hu
    rcases hother u e with h1 | h1 <;> rw [h1] at hu
    · exact hu
    · revert hu; cases st.pc u <;> simp [awaken]
  have don : ∀ u m e', u ≠ t → st'.pc u = .wDone m false e' → st.pc u = .wDone m false e' := by
    intro u m e' e hu
    rcases hother u e with h1 | h1 <;> rw [h1] at hu
    · exact hu
    · revert hu; cases st.pc u <;> simp [awaken]
  have rea : ∀ u, u ≠ t → st'.pc u = .pReady → st.pc u = .pReady := by
    intro u e hu
    rcases hother u e with h1 | h1 <;> rw [h1] at hu
    · exact hu
    · revert hu; cases st.pc u <;> simp [awaken]
  -- the cases, by the effect on the thread itself
  have finish :
      (hr : ∀ v, st'.result = some v → ∃ s, pc0 s = .sStart v) →
      (hse : ∀ v, st'.seen = some v → st.seen = some v ∨ st.result = some v) →
      (hse2 : st.seen.isSome = true → st'.seen.isSome = true) →
      (hr2 : st.result.isSome = true → st'.result.isSome = true ∨ st'.seen.isSome = true) →
      (hr3 : (∃ u, u ≠ t ∧ holds (st.pc u) = true ∧ ∃ m i, kind (st.pc u) = .waiter m i) →
        st.result.isSome = true → st'.result.isSome = true) →
      (∀ v, carried (st'.pc t) = some v → carried (st.pc t) = some v) →
      (∀ m, st'.pc t = .wGot m false → st'.result.isSome = true) →
      (∀ m e, st'.pc t = .wDone m false e →
        ((e = false → m = true → st'.seen.isSome = true) ∧
          (st'.result.isSome = true ∨ st'.seen.isSome = true))) →
      (st'.pc t = .pReady → st'.seen.isSome = true) → Vals pc0 st' := by
    intro hr hse hse2 hr2 hr3 h1 h2 h3 h4
    refine vals_quiet h hr hse hse2 hr2 ?_ ?_ ?_ ?_
    · intro s v hsv
      by_cases e : s = t
      · subst e; exact h1 v hsv
      · rw [car s e] at hsv; exact hsv
    · intro u m hu
      by_cases e : u = t
      · subst e; exact h2 m hu
      · have := got u m e hu
        exact hr3 ⟨u, e, by rw [this]; rfl, m, false, by rw [this]; rfl⟩ (h.got u m this)
    · intro u m e' hu
      by_cases e : u = t
      · subst e; exact Or.inr (h3 m e' hu)
      · exact Or.inl (don u m e' e hu)
    · intro u hu
      by_cases e : u = t
      · subst e; exact Or.inr (h4 hu)
      · exact Or.inl (rea u e hu)
  clear hother car got don rea
  have key : ∀ p : PC V, st.pc t = p → step st t = some st' → Vals pc0 st' := by
    intro p hp hs
    unfold step at hs
    rw [hp] at hs
    cases p <;> (try dsimp only at hs)
    case sLocked v =>
      simp only [Option.some.injEq] at hs
      subst hs
      have hv := h.carried t v (by rw [hp]; rfl)
      refine finish ?_ (fun v hv => Or.inl hv) id (fun _ => Or.inl rfl) (fun _ _ => rfl) ?_ ?_ ?_ ?_
      · intro w hw
        simp only [setPC, Option.some.injEq] at hw
        subst hw
        exact ⟨t, hv⟩
      · intro v; simp [setPC, carried]
      · intro m; simp [setPC]
      · intro m e; simp [setPC]
      · simp [setPC]
    case wGot m i =>
      split at hs <;> simp only [Option.some.injEq] at hs <;> subst hs
      · rename_i hm
        subst hm
        refine finish ?_ ?_ ?_ ?_ ?_ ?_ ?_ ?_ ?_
        · intro w hw; simp [setPC] at hw
        · intro v; simp only [setPC]; cases st.result <;> simp <;> exact fun x => Or.inr x
        · simp only [setPC]; cases st.result <;> simp
        · simp only [setPC]; cases st.result <;> simp
        · rintro ⟨u, hne, hu, _⟩
          exact absurd (lock_unique hl hu (by rw [hp]; rfl)) hne
        · intro v; simp [setPC, carried]
        · intro m; simp [setPC]
        · intro m e hd
          simp [setPC] at hd
          obtain ⟨h1, h2, h3⟩ := hd
          subst h2
          have := h.got t true hp
          simp only [setPC]
          cases hr : st.result with
          | none => rw [hr] at this; simp at this
          | some v => simp
        · simp [setPC]
      · refine finish h.result (fun v hv => Or.inl hv) id (fun x => Or.inl x) (fun _ x => x) ?_ ?_ ?_ ?_
        · intro v; simp [setPC, carried]
        · intro m; simp [setPC]
        · intro m' e hd
          simp [setPC] at hd
          obtain ⟨h1, h2, h3⟩ := hd
          subst h2
          have := h.got t m hp
          exact ⟨fun _ h5 => by simp_all, Or.inl this⟩
        · simp [setPC]
    case pTake w =>
      split at hs <;> (try split at hs) <;>
        simp only [Option.some.injEq, reduceCtorEq] at hs <;> subst hs
      · rename_i hl0 v hv
        refine finish ?_ ?_ ?_ ?_ ?_ ?_ ?_ ?_ ?_
        · intro w hw; simp [setPC] at hw
        · intro v; simp [setPC, hv]; exact fun x => Or.inr x
        · simp [setPC]
        · simp [setPC]
        · rintro ⟨u, _, _, m, i, hu⟩
          exact absurd hu (hk.poller' t u m i (by rw [hp]; rfl))
        · intro v; simp [setPC, carried]
        · intro m; simp [setPC]
        · intro m e; simp [setPC]
        · simp [setPC]
      · refine finish h.result (fun v hv => Or.inl hv) id (fun x => Or.inl x) (fun _ x => x) ?_ ?_ ?_ ?_
        · intro v; simp [setPC, carried]
        · intro m; simp [setPC]
        · intro m' e; simp [setPC]
        · simp [setPC]
    case wLoop m i =>
      split at hs <;> simp only [Option.some.injEq] at hs <;> subst hs
      · rename_i hc
        refine finish h.result (fun v hv => Or.inl hv) id (fun x => Or.inl x) (fun _ x => x) ?_ ?_ ?_ ?_
        · intro v; simp [setPC, carried]
        · intro m hm
          simp [setPC] at hm
          obtain ⟨_, h2⟩ := hm
          subst h2
          simpa [setPC] using hc
        · intro m' e; simp [setPC]
        · simp [setPC]
      · refine finish h.result (fun v hv => Or.inl hv) id (fun x => Or.inl x) (fun _ x => x) ?_ ?_ ?_ ?_
        · intro v; simp [setPC, carried]
        · intro m; simp [setPC]
        · intro m' e; simp [setPC]
        · simp [setPC]
    case wLocked m i =>
      split at hs <;> simp only [Option.some.injEq] at hs <;> subst hs
      · rename_i hc
        refine finish h.result (fun v hv => Or.inl hv) id (fun x => Or.inl x) (fun _ x => x) ?_ ?_ ?_ ?_
        · intro v; simp [setPC, carried]
        · intro m; simp [setPC]
        · intro m' e hd
          simp [setPC] at hd
          obtain ⟨_, _, h3⟩ := hd
          subst h3
          exact ⟨by simp, Or.inl hc⟩
        · simp [setPC]
      · refine finish h.result (fun v hv => Or.inl hv) id (fun x => Or.inl x) (fun _ x => x) ?_ ?_ ?_ ?_
        · intro v; simp [setPC, carried]
        · intro m; simp [setPC]
        · intro m' e; simp [setPC]
        · simp [setPC]
    case nLoop rest =>
      cases rest <;> simp only [Option.some.injEq] at hs <;> subst hs
      all_goals
        refine finish h.result (fun v hv => Or.inl hv) id (fun x => Or.inl x) (fun _ x => x) ?_ ?_ ?_ ?_
        · intro v; simp [setPC, carried]
        · intro m; simp [setPC]
        · intro m' e; simp [setPC]
        · simp [setPC]
    all_goals
      (try split at hs) <;> (try split at hs) <;>
        simp only [Option.some.injEq, reduceCtorEq] at hs <;> subst hs
    all_goals
      refine finish h.result (fun v hv => Or.inl hv) id (fun x => Or.inl x) (fun _ x => x) ?_ ?_ ?_ ?_
      · intro v; simp [setPC, carried, hp]
      · intro m; simp [setPC]
      · intro m' e; simp [setPC]
      · simp [setPC]
  exact key _ rfl hs

theorem vals_act {pc0 : Nat → PC V} (st : St V) (e : Ev) (hi : Inv st) (h : Vals pc0 st) :
    Vals pc0 (act st e) := by
  cases e with
  | run t =>
    simp only [act]
    cases hs : step st t with
    | none => exact h
    | some st' => exact vals_step st st' t hi.locks hi.kinds h hs
  | spurious t =>
    simp only [act]
    split
    · rename_i m i hp
      refine vals_quiet h h.result (fun v hv => Or.inl hv) id (fun x => Or.inl x) ?_ ?_ ?_ ?_
      · intro u v; by_cases e : u = t <;> simp [setPC, e, carried]
      · intro u m; by_cases e : u = t
        · simp [setPC, e]
        · simp only [setPC, e, if_false]; exact h.got u m
      · intro u m e'; by_cases e : u = t <;> simp [setPC, e]; intro x; exact Or.inl x
      · intro u; by_cases e : u = t <;> simp [setPC, e]; intro x; exact Or.inl x
    · exact h
  | poll t w =>
    simp only [act]
    split
    · rename_i l hp
      refine vals_quiet h h.result (fun v hv => Or.inl hv) id (fun x => Or.inl x) ?_ ?_ ?_ ?_
      · intro u v; by_cases e : u = t <;> simp [setPC, e, carried]
      · intro u m; by_cases e : u = t
        · simp [setPC, e]
        · simp only [setPC, e, if_false]; exact h.got u m
      · intro u m e'; by_cases e : u = t <;> simp [setPC, e]; intro x; exact Or.inl x
      · intro u; by_cases e : u = t <;> simp [setPC, e]; intro x; exact Or.inl x
    · exact h

theorem vals_reach {pc : Nat → PC V} (h : Legal pc) (evs : List Ev) :
    Vals pc (run (init pc) evs) := by
  have : ∀ (evs : List Ev) (st : St V), Inv st → Vals pc st → Vals pc (run st evs) := by
    intro evs
    induction evs with
    | nil => intro st _ h; exact h
    | cons e es ih => intro st hi hv; exact ih _ (inv_act st e hi) (vals_act st e hi hv)
  refine this evs _ (inv_init h) ⟨?_, ?_, ?_, ?_, ?_, ?_, ?_⟩
  · intro s v hv
    have := h.begins s
    simp only [init] at hv
    generalize pc s = p at this hv
    cases this <;> simp_all [carried]
  · intro v hv; simp [init] at hv
  · intro v hv; simp [init] at hv
  all_goals
    intro t
    have := h.begins t
    simp only [init]
    generalize pc t = p at this
    cases this <;> simp

end Verif.Promise.Race
