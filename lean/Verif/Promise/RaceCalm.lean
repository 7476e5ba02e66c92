/- Invariants of polls and of interrupts, on schedules without the known races. -/
import Verif.Promise.RaceMore

set_option linter.unusedSimpArgs false
set_option linter.unusedVariables false

namespace Verif.Promise.Race

variable {V : Type}

/-- The sender has not reached the waker yet. -/
def early : PC V → Bool
  | .sStart _ | .sLocked _ | .sWritten => true
  | _ => false

def unstarted : PC V → Bool
  | .sStart _ => true
  | _ => false

/-- A posted result stays until it is taken. -/
def Kept (st : St V) : Prop :=
  ∀ s p, posted (st.pc s) = true → kind (st.pc p) = .poller →
    st.pc p = .pReady ∨ st.result.isSome = true

theorem kept_step (st st' : St V) (t : Nat) (hk : Kinds st) (h : Kept st)
    (hs : step st t = some st') : Kept st' := by
  intro s p hps hpp
  have hpp0 : kind (st.pc p) = .poller := by rw [← kind_step st st' t p hs]; exact hpp
  have hold : ∀ u, u ≠ t → st'.pc u = st.pc u ∨ st'.pc u = awaken (st.pc u) :=
    fun u e => step_other hs e
  have hposted : s ≠ t → posted (st.pc s) = true := by
    intro e
    rcases hold s e with h1 | h1 <;> rw [h1] at hps
    · exact hps
    · simpa using hps
  have hpr : p ≠ t → st.pc p = .pReady → st'.pc p = .pReady := by
    intro e h1
    rcases hold p e with h2 | h2 <;> rw [h2, h1]
    rfl
  clear hold
  by_cases hps0 : posted (st.pc s) = true
  · have h0 := h s p hps0 hpp0
    unfold step at hs
    cases hp : st.pc t <;> rw [hp] at hs <;> (try dsimp only at hs)
    case wGot m i =>
      split at hs <;> simp only [Option.some.injEq] at hs <;> subst hs
      · exact absurd (by rw [hp]; rfl : kind (st.pc t) = .waiter m i) (hk.poller' p t m i hpp0)
      · rcases h0 with h0 | h0
        · by_cases e : p = t
          · subst e; rw [hp] at h0; simp at h0
          · exact Or.inl (hpr e h0)
        · exact Or.inr h0
    case pTake w =>
      have e : p = t := hk.pollers p t hpp0 (by rw [hp]; rfl)
      subst e
      split at hs <;> (try split at hs) <;>
        simp only [Option.some.injEq, reduceCtorEq] at hs <;> subst hs
      · left; simp [setPC]
      · rcases h0 with h0 | h0
        · rw [hp] at h0; simp at h0
        · right; exact h0
    case nLoop rest =>
      cases rest <;> simp only [Option.some.injEq] at hs <;> subst hs <;>
      (rcases h0 with h0 | h0
       · by_cases e : p = t
         · subst e; rw [hp] at h0; simp at h0
         · exact Or.inl (hpr e h0)
       · exact Or.inr h0)
    all_goals
      (try split at hs) <;> (try split at hs) <;>
        simp only [Option.some.injEq, reduceCtorEq] at hs <;> subst hs
    all_goals
      rcases h0 with h0 | h0
      · by_cases e : p = t
        · subst e; rw [hp] at h0; simp at h0
        · exact Or.inl (hpr e h0)
      · first | exact Or.inr h0 | exact Or.inr rfl
  · have e : s = t := Classical.byContradiction fun e => hps0 (hposted e)
    subst e
    unfold step at hs
    cases hp : st.pc s <;> rw [hp] at hs <;> (try dsimp only at hs)
    case sLocked v =>
      simp only [Option.some.injEq] at hs
      subst hs
      exact Or.inr rfl
    case nLoop rest =>
      cases rest <;> simp only [Option.some.injEq] at hs <;> subst hs <;>
        simp [setPC, posted] at hps
    all_goals
      (try split at hs) <;> (try split at hs) <;>
        simp only [Option.some.injEq, reduceCtorEq] at hs <;> subst hs
    all_goals first
      | (simp [setPC, posted] at hps; done)
      | (rw [hp] at hps0; simp [posted] at hps0)

/-- A pending poll has its waker in place, or it was woken. -/
structure Polls (st : St V) : Prop where
  gap : ∀ p w s, st.pc p = .pGap w → kind (st.pc s) = .sender → unstarted (st.pc s) = true
  wait : ∀ p w, st.pc p = .pIdle (some w) → w ∈ st.woken ∨
    (st.waker = some w ∧ ∀ s, kind (st.pc s) = .sender → early (st.pc s) = true)

theorem early_awaken (p : PC V) : early (awaken p) = early p := by cases p <;> rfl
theorem unstarted_awaken (p : PC V) : unstarted (awaken p) = unstarted p := by cases p <;> rfl

theorem awaken_gap {p : PC V} {w : Nat} (h : awaken p = .pGap w) : p = .pGap w := by
  cases p <;> simp_all [awaken]
theorem awaken_idle {p : PC V} {w : Option Nat} (h : awaken p = .pIdle w) : p = .pIdle w := by
  cases p <;> simp_all [awaken]

theorem early_of_unstarted {p : PC V} (h : unstarted p = true) : early p = true := by
  cases p <;> simp_all [unstarted, early]

/-- A step of a thread that is neither sender nor poller. -/
theorem polls_frame {st st' : St V} (t : Nat) (h : Polls st)
    (hk : ∀ u, kind (st'.pc u) = kind (st.pc u))
    (hother : ∀ u, u ≠ t → st'.pc u = st.pc u ∨ st'.pc u = awaken (st.pc u))
    (hw : st'.woken = st.woken) (hwk : st'.waker = st.waker)
    (hp : ∀ w, st'.pc t ≠ .pGap w) (hpi : ∀ w, st'.pc t ≠ .pIdle (some w))
    (hun : kind (st.pc t) = .sender → unstarted (st.pc t) = true → unstarted (st'.pc t) = true
      ∨ ∀ p w, st.pc p ≠ .pGap w)
    (hea : kind (st.pc t) = .sender → early (st.pc t) = true → early (st'.pc t) = true) :
    Polls st' := by
  constructor
  · intro p w s hg hs
    have hg0 : st.pc p = .pGap w := by
      by_cases e : p = t
      · subst e; exact absurd hg (hp w)
      · rcases hother p e with h1 | h1 <;> rw [h1] at hg
        · exact hg
        · exact awaken_gap hg
    rw [hk] at hs
    have h0 := h.gap p w s hg0 hs
    by_cases e : s = t
    · subst e
      rcases hun hs h0 with h1 | h1
      · exact h1
      · exact absurd hg0 (h1 p w)
    · rcases hother s e with h1 | h1 <;> rw [h1]
      · exact h0
      · rw [unstarted_awaken]; exact h0
  · intro p w hg
    have hg0 : st.pc p = .pIdle (some w) := by
      by_cases e : p = t
      · subst e; exact absurd hg (hpi w)
      · rcases hother p e with h1 | h1 <;> rw [h1] at hg
        · exact hg
        · exact awaken_idle hg
    rcases h.wait p w hg0 with h1 | ⟨h1, h2⟩
    · left; rw [hw]; exact h1
    · right
      refine ⟨by rw [hwk]; exact h1, ?_⟩
      intro s hs
      rw [hk] at hs
      have h3 := h2 s hs
      by_cases e : s = t
      · subst e; exact hea hs h3
      · rcases hother s e with h4 | h4 <;> rw [h4]
        · exact h3
        · rw [early_awaken]; exact h3

theorem polls_step (st st' : St V) (t : Nat) (hl : Locks st) (hkd : Kinds st) (hkept : Kept st)
    (h : Polls st) (hcalm : ∀ v p w, st.pc t = .sStart v → st.pc p ≠ .pGap w)
    (hs : step st t = some st') : Polls st' := by
  have hk := fun u => kind_step st st' t u hs
  have hother : ∀ u, u ≠ t → st'.pc u = st.pc u ∨ st'.pc u = awaken (st.pc u) :=
    fun u e => step_other hs e
  unfold step at hs
  cases hp : st.pc t <;> rw [hp] at hs <;> (try dsimp only at hs)
  case sWritten =>
    simp only [Option.some.injEq] at hs
    subst hs
    constructor
    · intro p w s hg _
      by_cases e : p = t
      · subst e; simp [setPC] at hg
      · simp [setPC, e] at hg
        have := h.gap p w t hg (by rw [hp]; rfl)
        rw [hp] at this; simp [unstarted] at this
    · intro p w hg
      by_cases e : p = t
      · subst e; simp [setPC] at hg
      · simp [setPC, e] at hg
        left
        rcases h.wait p w hg with h1 | ⟨h1, _⟩
        · simp [setPC, h1]
        · simp [setPC, h1]
  case pTake w =>
    split at hs <;> (try split at hs) <;>
      simp only [Option.some.injEq, reduceCtorEq] at hs <;> subst hs
    · exact polls_frame t h hk hother rfl rfl (by simp [setPC]) (by simp [setPC])
        (by rw [hp]; simp [kind]) (by rw [hp]; simp [kind])
    · rename_i hl0 hr
      constructor
      · intro p w' s hg hsk
        by_cases e : s = t
        · subst e; simp [setPC, kind] at hsk
        · simp [setPC, e] at hsk ⊢
          cases hps : posted (st.pc s) with
          | true =>
            rcases hkept s t hps (by rw [hp]; rfl) with h1 | h1
            · rw [hp] at h1; simp at h1
            · rw [hr] at h1; simp at h1
          | false =>
            cases hps' : st.pc s <;> rw [hps'] at hps hsk <;> simp [kind, posted] at hps hsk
            · rfl
            · rename_i hlk v
              have := (hl.lock s).2 (by rw [hps']; rfl)
              simp_all
      · intro p w' hg
        by_cases e : p = t
        · subst e; simp [setPC] at hg
        · simp [setPC, e] at hg
          exact absurd (hkd.pollers p t (by rw [hg]; rfl) (by rw [hp]; rfl)) e
  case pGap w =>
    split at hs <;> simp only [Option.some.injEq, reduceCtorEq] at hs <;> subst hs
    constructor
    · intro p w' s hg hsk
      by_cases e : p = t
      · subst e; simp [setPC] at hg
      · simp [setPC, e] at hg
        exact absurd (hkd.pollers p t (by rw [hg]; rfl) (by rw [hp]; rfl)) e
    · intro p w' hg
      by_cases e : p = t
      · subst e
        simp [setPC] at hg
        subst hg
        right
        refine ⟨rfl, ?_⟩
        intro s hsk
        by_cases e : s = p
        · subst e; simp [setPC, kind] at hsk
        · simp [setPC, e] at hsk ⊢
          exact early_of_unstarted (h.gap p w s hp hsk)
      · simp [setPC, e] at hg
        exact absurd (hkd.pollers p t (by rw [hg]; rfl) (by rw [hp]; rfl)) e
  case sStart v =>
    split at hs <;> simp only [Option.some.injEq, reduceCtorEq] at hs <;> subst hs
    exact polls_frame t h hk hother rfl rfl (by simp [setPC]) (by simp [setPC])
      (fun _ _ => Or.inr (fun p w => hcalm v p w hp)) (fun _ _ => by simp [setPC, early])
  case nLoop rest =>
    cases rest <;> simp only [Option.some.injEq] at hs <;> subst hs <;>
      exact polls_frame t h hk hother rfl rfl (by simp [setPC]) (by simp [setPC])
        (by rw [hp]; simp [kind]) (by rw [hp]; simp [kind])
  all_goals
    (try split at hs) <;> (try split at hs) <;>
      simp only [Option.some.injEq, reduceCtorEq] at hs <;> subst hs
  all_goals
    refine polls_frame t h hk hother rfl rfl (by simp [setPC]) (by simp [setPC])
      ?_ ?_ <;> (rw [hp]; simp [kind, unstarted, early, setPC])

theorem kept_act (st : St V) (e : Ev) (hi : Inv st) (h : Kept st) : Kept (act st e) := by
  cases e with
  | run t =>
    simp only [act]
    cases hs : step st t with
    | none => exact h
    | some st' => exact kept_step st st' t hi.kinds h hs
  | spurious t =>
    simp only [act]
    split
    · rename_i m i hp
      intro s p hs hpp
      by_cases e : s = t
      · subst e; simp [setPC, posted] at hs
      · by_cases e' : p = t
        · subst e'; simp [setPC, kind] at hpp
        · simp [setPC, e, e'] at *
          exact h s p hs hpp
    · exact h
  | poll t w =>
    simp only [act]
    split
    · rename_i m hp
      intro s p hs hpp
      by_cases e : s = t
      · subst e; simp [setPC, posted] at hs
      · simp [setPC, e] at hs
        by_cases e' : p = t
        · subst e'
          rcases h s p hs (by rw [hp]; rfl) with h1 | h1
          · rw [hp] at h1; simp at h1
          · exact Or.inr h1
        · simp [setPC, e'] at hpp ⊢
          exact h s p hs hpp
    · exact h

theorem polls_act (st : St V) (e : Ev) (hi : Inv st) (hke : Kept st) (h : Polls st)
    (hcalm : ∀ t v p w, e = .run t → st.pc t = .sStart v → st.pc p ≠ .pGap w) :
    Polls (act st e) := by
  cases e with
  | run t =>
    simp only [act]
    cases hs : step st t with
    | none => exact h
    | some st' =>
      exact polls_step st st' t hi.locks hi.kinds hke h (fun v p w => hcalm t v p w rfl) hs
  | spurious t =>
    have hk := kind_act st (.spurious t)
    revert hk
    simp only [act]
    split
    · rename_i m i hp
      intro hk
      exact polls_frame t h hk (fun u e => Or.inl (by simp [setPC, e])) rfl rfl
        (by simp [setPC]) (by simp [setPC]) (by rw [hp]; simp [kind]) (by rw [hp]; simp [kind])
    · intro _; exact h
  | poll t w =>
    have hk := kind_act st (.poll t w)
    revert hk
    simp only [act]
    split
    · rename_i m hp
      intro hk
      exact polls_frame t h hk (fun u e => Or.inl (by simp [setPC, e])) rfl rfl
        (by simp [setPC]) (by simp [setPC]) (by rw [hp]; simp [kind]) (by rw [hp]; simp [kind])
    · intro _; exact h

theorem kept_init {pc : Nat → PC V} (h : Legal pc) : Kept (init pc) := by
  intro s p hs
  have := h.begins s
  simp only [init] at hs
  generalize pc s = q at this hs
  cases this <;> simp [posted] at hs

theorem polls_init {pc : Nat → PC V} (h : Legal pc) : Polls (init pc) := by
  constructor
  · intro p w s hp
    have := h.begins p
    simp only [init] at hp
    rw [hp] at this; cases this
  · intro p w hp
    have := h.begins p
    simp only [init] at hp
    rw [hp] at this; cases this

theorem kept_reach {pc : Nat → PC V} (h : Legal pc) (evs : List Ev) :
    Kept (run (init pc) evs) := by
  have : ∀ (evs : List Ev) (st : St V), Inv st → Kept st → Kept (run st evs) := by
    intro evs
    induction evs with
    | nil => intro st _ h; exact h
    | cons e es ih => intro st hi hk; exact ih _ (inv_act st e hi) (kept_act st e hi hk)
  exact this evs _ (inv_init h) (kept_init h)

theorem polls_reach {pc : Nat → PC V} (h : Legal pc) (evs : List Ev)
    (hc : PollCalm (init pc) evs) : Polls (run (init pc) evs) := by
  have : ∀ (evs : List Ev) (st : St V), Inv st → Kept st → Polls st → PollCalm st evs →
      Polls (run st evs) := by
    intro evs
    induction evs with
    | nil => intro st _ _ h _; exact h
    | cons e es ih =>
      intro st hi hk hp hc
      exact ih _ (inv_act st e hi) (kept_act st e hi hk) (polls_act st e hi hk hp hc.1) hc.2
  exact this evs _ (inv_init h) (kept_init h) (polls_init h) hc

/-! ### interrupts -/

/-- An interruptible waiter that has been registered and has not returned. -/
def registered : PC V → Bool
  | .wStart _ true | .wLocked _ true | .wLoop _ true | .wWill _ true | .wBlocked _ true
  | .wRelock _ true | .wGot _ true => true
  | _ => false

theorem registered_awaken (p : PC V) : registered (awaken p) = registered p := by
  cases p <;> try rfl
  rename_i m i; cases i <;> rfl

/-- Which waiters the interrupter has dealt with. -/
structure Cover (st : St V) : Prop where
  reg : ∀ t, registered (st.pc t) = true → st.flags t = true ∨ t ∈ st.waiters
  loop : ∀ n rest, st.pc n = .nLoop rest → ∀ t, t ∈ st.waiters → st.flags t = true ∨ t ∈ rest
  stored : ∀ n u rest, st.pc n = .nStored u rest →
    st.flags u = true ∧ ∀ t, t ∈ st.waiters → st.flags t = true ∨ t ∈ rest

theorem awaken_nLoop {p : PC V} {r} (h : awaken p = .nLoop r) : p = .nLoop r := by
  cases p <;> simp_all [awaken]
theorem awaken_nStored {p : PC V} {u r} (h : awaken p = .nStored u r) : p = .nStored u r := by
  cases p <;> simp_all [awaken]
theorem awaken_nDone {p : PC V} (h : awaken p = .nDone) : p = .nDone := by
  cases p <;> simp_all [awaken]

theorem cover_frame {st st' : St V} (t : Nat) (h : Cover st)
    (hother : ∀ u, u ≠ t → st'.pc u = st.pc u ∨ st'.pc u = awaken (st.pc u))
    (hf : st'.flags = st.flags) (hw : st'.waiters = st.waiters)
    (hr : registered (st'.pc t) = true → registered (st.pc t) = true)
    (hn : ∀ r, st'.pc t ≠ .nLoop r) (hn' : ∀ u r, st'.pc t ≠ .nStored u r) : Cover st' := by
  refine ⟨?_, ?_, ?_⟩
  · intro u hu
    rw [hf, hw]
    refine h.reg u ?_
    by_cases e : u = t
    · subst e; exact hr hu
    · rcases hother u e with h1 | h1 <;> rw [h1] at hu
      · exact hu
      · rw [registered_awaken] at hu; exact hu
  · intro n rest hp
    rw [hf, hw]
    refine h.loop n rest ?_
    by_cases e : n = t
    · subst e; exact absurd hp (hn rest)
    · rcases hother n e with h1 | h1 <;> rw [h1] at hp
      · exact hp
      · exact awaken_nLoop hp
  · intro n u rest hp
    rw [hf, hw]
    refine h.stored n u rest ?_
    by_cases e : n = t
    · subst e; exact absurd hp (hn' u rest)
    · rcases hother n e with h1 | h1 <;> rw [h1] at hp
      · exact hp
      · exact awaken_nStored hp

theorem ilock_unique {st : St V} (h : Locks st) {t u : Nat} (ht : holdsI (st.pc t) = true)
    (hu : holdsI (st.pc u) = true) : t = u := by
  have := (h.ilock t).2 ht
  have h2 := (h.ilock u).2 hu
  rw [this] at h2
  exact Option.some.inj h2

theorem no_loop_of_free {st : St V} (h : Locks st) (hi : st.ilock = none) (n : Nat) :
    (∀ r, st.pc n ≠ .nLoop r) ∧ ∀ u r, st.pc n ≠ .nStored u r := by
  constructor
  · intro r hp; have := (h.ilock n).2 (by rw [hp]; rfl); rw [hi] at this; simp at this
  · intro u r hp; have := (h.ilock n).2 (by rw [hp]; rfl); rw [hi] at this; simp at this

theorem cover_step (st st' : St V) (t : Nat) (hl : Locks st) (h : Cover st)
    (hs : step st t = some st') : Cover st' := by
  have hother : ∀ u, u ≠ t → st'.pc u = st.pc u ∨ st'.pc u = awaken (st.pc u) :=
    fun u e => step_other hs e
  unfold step at hs
  cases hp : st.pc t <;> rw [hp] at hs <;> (try dsimp only at hs)
  case wPush m =>
    split at hs
    · rename_i hil
      have hno := no_loop_of_free hl hil
      split at hs <;> simp only [Option.some.injEq] at hs <;> subst hs
      · exact cover_frame t h hother rfl rfl (by simp [setPC, registered]) (by simp [setPC])
          (by simp [setPC])
      · refine ⟨?_, ?_, ?_⟩
        · intro u hu
          by_cases e : u = t
          · subst e; right; simp [setPC]
          · simp [setPC, e] at hu ⊢
            exact h.reg u hu
        · intro n rest hn
          by_cases e : n = t
          · subst e; simp [setPC] at hn
          · simp [setPC, e] at hn; exact absurd hn ((hno n).1 rest)
        · intro n u rest hn
          by_cases e : n = t
          · subst e; simp [setPC] at hn
          · simp [setPC, e] at hn; exact absurd hn ((hno n).2 u rest)
    · simp at hs
  case nStart =>
    split at hs <;> simp only [Option.some.injEq, reduceCtorEq] at hs <;> subst hs
    rename_i hil
    have hno := no_loop_of_free hl hil
    refine ⟨?_, ?_, ?_⟩
    · intro u hu
      by_cases e : u = t
      · subst e; simp [setPC, registered] at hu
      · simp [setPC, e] at hu ⊢; exact h.reg u hu
    · intro n rest hn
      by_cases e : n = t
      · subst e
        simp [setPC] at hn ⊢
        subst hn
        exact fun x hx => Or.inr hx
      · simp [setPC, e] at hn; exact absurd hn ((hno n).1 rest)
    · intro n u rest hn
      by_cases e : n = t
      · subst e; simp [setPC] at hn
      · simp [setPC, e] at hn; exact absurd hn ((hno n).2 u rest)
  case nLoop rest =>
    have hhold : holdsI (st.pc t) = true := by rw [hp]; rfl
    have hcov := h.loop t rest hp
    cases rest <;> simp only [Option.some.injEq] at hs <;> subst hs
    · refine ⟨?_, ?_, ?_⟩
      · intro u hu
        by_cases e : u = t
        · subst e; simp [setPC, registered] at hu
        · simp [setPC, e] at hu ⊢
          rcases h.reg u hu with h1 | h1
          · exact h1
          · simpa using hcov u h1
      · intro n r hn x hx
        simp [setPC] at hx
      · intro n u r hn
        by_cases e : n = t
        · subst e; simp [setPC] at hn
        · simp [setPC, e] at hn
          exact absurd (ilock_unique hl (by rw [hn]; rfl) hhold) e
    · rename_i v rest
      refine ⟨?_, ?_, ?_⟩
      · intro u hu
        by_cases e : u = t
        · subst e; simp [setPC, registered] at hu
        · simp [setPC, e] at hu ⊢
          rcases h.reg u hu with h1 | h1
          · left; right; exact h1
          · right; exact h1
      · intro n r hn
        by_cases e : n = t
        · subst e; simp [setPC] at hn
        · simp [setPC, e] at hn
          exact absurd (ilock_unique hl (by rw [hn]; rfl) hhold) e
      · intro n u r hn
        by_cases e : n = t
        · subst e
          simp [setPC] at hn ⊢
          obtain ⟨h1, h2⟩ := hn
          subst h1 h2
          refine ⟨Or.inl rfl, ?_⟩
          intro x hx
          rcases hcov x hx with h3 | h3
          · left; right; exact h3
          · rcases List.mem_cons.1 h3 with h4 | h4
            · left; left; exact h4
            · right; exact h4
        · simp [setPC, e] at hn
          exact absurd (ilock_unique hl (by rw [hn]; rfl) hhold) e
  case nStored v rest =>
    have hhold : holdsI (st.pc t) = true := by rw [hp]; rfl
    have hcov := h.stored t v rest hp
    simp only [Option.some.injEq] at hs
    subst hs
    refine ⟨?_, ?_, ?_⟩
    · intro u hu
      by_cases e : u = t
      · subst e; simp [setPC, registered] at hu
      · simp [setPC, notifyAll, e, registered_awaken] at hu ⊢
        exact h.reg u hu
    · intro n r hn
      by_cases e : n = t
      · subst e
        simp [setPC, notifyAll] at hn ⊢
        subst hn
        exact hcov.2
      · simp [setPC, notifyAll, e] at hn
        have hn := awaken_nLoop hn
        exact absurd (ilock_unique hl (by rw [hn]; rfl) hhold) e
    · intro n u r hn
      by_cases e : n = t
      · subst e; simp [setPC] at hn
      · simp [setPC, notifyAll, e] at hn
        have hn := awaken_nStored hn
        exact absurd (ilock_unique hl (by rw [hn]; rfl) hhold) e
  all_goals
    (try split at hs) <;> (try split at hs) <;>
      simp only [Option.some.injEq, reduceCtorEq] at hs <;> subst hs
  all_goals
    refine cover_frame t h hother rfl rfl ?_ (by simp [setPC]) (by simp [setPC])
    rw [hp]
    first
      | (simp [setPC, registered]; done)
      | (rename_i m i; cases i <;> simp [setPC, registered])
      | (rename_i m i _; cases i <;> simp [setPC, registered])

/-- A flagged waiter that is not awake is about to be notified. -/
def Called (st : St V) : Prop :=
  ∀ t m, (st.pc t = .wBlocked m true ∨ st.pc t = .wWill m true) → st.flags t = true →
    ∃ n rest, st.pc n = .nStored t rest

theorem called_frame {st st' : St V} (t : Nat) (h : Called st)
    (hother : ∀ u, u ≠ t → st'.pc u = st.pc u ∨ st'.pc u = awaken (st.pc u))
    (hf : ∀ u, st'.flags u = true → st.flags u = true)
    (hb : ∀ m, (st'.pc t = .wBlocked m true ∨ st'.pc t = .wWill m true) →
      st'.flags t = true → st.pc t = .wBlocked m true ∨ st.pc t = .wWill m true)
    (hn : ∀ u r, st.pc t ≠ .nStored u r) : Called st' := by
  intro u m hu hfu
  have h0 : st.pc u = .wBlocked m true ∨ st.pc u = .wWill m true := by
    by_cases e : u = t
    · subst e; exact hb m hu hfu
    · rcases hother u e with h1 | h1 <;> rw [h1] at hu
      · exact hu
      · rcases hu with h2 | h2
        · exact absurd h2 (awaken_ne_blocked _ _ _)
        · exact Or.inr (awaken_eq_will h2)
  obtain ⟨n, r, hnr⟩ := h u m h0 (hf u hfu)
  refine ⟨n, r, ?_⟩
  by_cases e : n = t
  · subst e; exact absurd hnr (hn u r)
  · rcases hother n e with h1 | h1 <;> rw [h1, hnr]
    rfl

theorem called_step (st st' : St V) (t : Nat) (h : Called st)
    (hcalm : ∀ u r p m i, st.pc t = .nStored u r → st.pc p ≠ .wWill m i)
    (hs : step st t = some st') : Called st' := by
  have hother : ∀ u, u ≠ t → st'.pc u = st.pc u ∨ st'.pc u = awaken (st.pc u) :=
    fun u e => step_other hs e
  unfold step at hs
  cases hp : st.pc t <;> rw [hp] at hs <;> (try dsimp only at hs)
  case nStored v rest =>
    simp only [Option.some.injEq] at hs
    subst hs
    intro u m hu _
    exfalso
    by_cases e : u = t
    · subst e; simp [setPC] at hu
    · simp [setPC, notifyAll, e] at hu
      rcases hu with h1 | h1
      · exact awaken_ne_blocked _ _ _ h1
      · exact hcalm v rest u m true hp (awaken_eq_will h1)
  case nLoop rest =>
    cases rest <;> simp only [Option.some.injEq] at hs <;> subst hs
    · exact called_frame t h hother (fun u x => x) (by simp [setPC]) (by rw [hp]; simp)
    · rename_i v rest
      intro u m hu hf
      by_cases e : u = v
      · subst e; exact ⟨t, rest, by simp [setPC]⟩
      · simp [setPC, e] at hf
        have e' : u ≠ t := by
          intro e'; subst e'; simp [setPC] at hu
        simp [setPC, e'] at hu
        obtain ⟨n, r, hn⟩ := h u m hu hf
        refine ⟨n, r, ?_⟩
        by_cases e2 : n = t
        · subst e2; rw [hp] at hn; simp at hn
        · simp [setPC, e2, hn]
  case wLoop m i =>
    split at hs <;> simp only [Option.some.injEq] at hs <;> subst hs
    · exact called_frame t h hother (fun u x => x) (by simp [setPC]) (by rw [hp]; simp)
    · rename_i hc
      refine called_frame t h hother (fun u x => x) ?_ (by rw [hp]; simp)
      intro m' hm hf
      simp [setPC] at hm hf
      obtain ⟨_, h2⟩ := hm
      subst h2
      simp [hf] at hc
  case wPush m =>
    split at hs <;> (try split at hs) <;> simp only [Option.some.injEq, reduceCtorEq] at hs <;>
      subst hs
    · exact called_frame t h hother (fun u x => x) (by simp [setPC]) (by rw [hp]; simp)
    · refine called_frame t h hother ?_ (by simp [setPC]) (by rw [hp]; simp)
      intro u hu
      by_cases e : u = t
      · subst e; simp [setPC] at hu
      · simpa [setPC, e] using hu
  case wWill m i =>
    simp only [Option.some.injEq] at hs
    subst hs
    refine called_frame t h hother (fun u x => x) ?_ (by rw [hp]; simp)
    intro m' hm _
    simp [setPC] at hm
    obtain ⟨h1, h2⟩ := hm
    subst h1 h2
    exact Or.inr hp
  all_goals
    (try split at hs) <;> (try split at hs) <;>
      simp only [Option.some.injEq, reduceCtorEq] at hs <;> subst hs
  all_goals
    exact called_frame t h hother (fun u x => x) (by simp [setPC]) (by rw [hp]; simp)

/-- After an interrupt that is never reset. -/
structure After (st : St V) : Prop where
  held : ∀ n, holdsI (st.pc n) = true → st.triggered = true
  done : ∀ n, st.pc n = .nDone → st.triggered = true ∧ st.waiters = [] ∧
    ∀ n', (∀ u r, st.pc n' ≠ .nStored u r) ∧ ∀ r, st.pc n' = .nLoop r → r = []

theorem after_frame {st st' : St V} (t : Nat) (h : After st)
    (hother : ∀ u, u ≠ t → st'.pc u = st.pc u ∨ st'.pc u = awaken (st.pc u))
    (ht : st'.triggered = st.triggered)
    (hw : st.triggered = true → st'.waiters = st.waiters)
    (hp : holdsI (st'.pc t) = false) (hp0 : holdsI (st.pc t) = false) (hd : st'.pc t ≠ .nDone) :
    After st' := by
  have hold : ∀ n, holdsI (st'.pc n) = holdsI (st.pc n) := by
    intro n
    by_cases e : n = t
    · subst e; rw [hp, hp0]
    · rcases hother n e with h1 | h1 <;> rw [h1]; rw [holdsI_awaken]
  have hback : ∀ n, n ≠ t → ∀ q : PC V, (∀ m i, q ≠ .wBlocked m i) → (∀ m i, q ≠ .wRelock m i) →
      st'.pc n = q → st.pc n = q := by
    intro n e q hq hq' hn
    rcases hother n e with h1 | h1 <;> rw [h1] at hn
    · exact hn
    · revert hn
      cases st.pc n <;> simp [awaken] <;> intro hn
      all_goals first | exact hn | exact absurd hn.symm (hq' _ _)
  constructor
  · intro n hn
    rw [hold] at hn
    rw [ht]
    exact h.held n hn
  · intro n hn
    have e : n ≠ t := by intro e; subst e; exact hd hn
    have hn0 := hback n e _ (by simp) (by simp) hn
    obtain ⟨h1, h2, h3⟩ := h.done n hn0
    refine ⟨by rw [ht]; exact h1, by rw [hw h1]; exact h2, ?_⟩
    intro n'
    by_cases e' : n' = t
    · subst e'
      constructor
      · intro u r hx; rw [hx] at hp; simp [holdsI] at hp
      · intro r hx; rw [hx] at hp; simp [holdsI] at hp
    · constructor
      · intro u r hx
        exact (h3 n').1 u r (hback n' e' _ (by simp) (by simp) hx)
      · intro r hx
        exact (h3 n').2 r (hback n' e' _ (by simp) (by simp) hx)

theorem after_step (st st' : St V) (t : Nat) (hl : Locks st) (h : After st)
    (hnr : kind (st.pc t) ≠ .resetter) (hs : step st t = some st') : After st' := by
  have hother : ∀ u, u ≠ t → st'.pc u = st.pc u ∨ st'.pc u = awaken (st.pc u) :=
    fun u e => step_other hs e
  unfold step at hs
  cases hp : st.pc t <;> rw [hp] at hs <;> (try dsimp only at hs)
  case rStart => rw [hp] at hnr; exact absurd rfl hnr
  case nStart =>
    split at hs <;> simp only [Option.some.injEq, reduceCtorEq] at hs <;> subst hs
    rename_i hil
    have hno := no_loop_of_free hl hil
    constructor
    · intro n _; rfl
    · intro n hn
      have e : n ≠ t := by intro e; subst e; simp [setPC] at hn
      simp [setPC, e] at hn
      obtain ⟨h1, h2, h3⟩ := h.done n hn
      refine ⟨rfl, h2, ?_⟩
      intro n'
      by_cases e' : n' = t
      · subst e'
        constructor
        · intro u r; simp [setPC]
        · intro r; simp [setPC, h2]
      · simp [setPC, e']
        exact ⟨fun u r => (hno n').2 u r, fun r x => absurd x ((hno n').1 r)⟩
  case nLoop rest =>
    have hhold : holdsI (st.pc t) = true := by rw [hp]; rfl
    have htr := h.held t hhold
    cases rest <;> simp only [Option.some.injEq] at hs <;> subst hs
    · constructor
      · intro n _; exact htr
      · intro n _
        refine ⟨htr, rfl, ?_⟩
        intro n'
        by_cases e' : n' = t
        · subst e'; simp [setPC]
        · simp [setPC, e']
          constructor
          · intro u r hx; exact e' (ilock_unique hl (by rw [hx]; rfl) hhold)
          · intro r hx; exact absurd (ilock_unique hl (by rw [hx]; rfl) hhold) e'
    · rename_i v rest
      constructor
      · intro n _; exact htr
      · intro n hn
        have e : n ≠ t := by intro e; subst e; simp [setPC] at hn
        simp [setPC, e] at hn
        obtain ⟨_, _, h3⟩ := h.done n hn
        have := (h3 t).2 _ hp
        simp at this
  case nStored v rest =>
    have hhold : holdsI (st.pc t) = true := by rw [hp]; rfl
    have htr := h.held t hhold
    simp only [Option.some.injEq] at hs
    subst hs
    constructor
    · intro n _; exact htr
    · intro n hn
      have e : n ≠ t := by intro e; subst e; simp [setPC] at hn
      simp [setPC, notifyAll, e] at hn
      obtain ⟨_, _, h3⟩ := h.done n (awaken_nDone hn)
      exact absurd hp ((h3 t).1 v rest)
  case wPush m =>
    split at hs <;> (try split at hs) <;> simp only [Option.some.injEq, reduceCtorEq] at hs <;>
      subst hs
    · exact after_frame t h hother rfl (fun _ => rfl) (by simp [setPC, holdsI])
        (by rw [hp]; rfl) (by simp [setPC])
    · rename_i htr
      exact after_frame t h hother rfl (fun x => absurd x htr) (by simp [setPC, holdsI])
        (by rw [hp]; rfl) (by simp [setPC])
  all_goals
    (try split at hs) <;> (try split at hs) <;>
      simp only [Option.some.injEq, reduceCtorEq] at hs <;> subst hs
  all_goals
    exact after_frame t h hother rfl (fun _ => rfl) (by simp [setPC, holdsI])
        (by rw [hp]; rfl) (by simp [setPC])

theorem cover_act (st : St V) (e : Ev) (hi : Inv st) (h : Cover st) : Cover (act st e) := by
  cases e with
  | run t =>
    simp only [act]
    cases hs : step st t with
    | none => exact h
    | some st' => exact cover_step st st' t hi.locks h hs
  | spurious t =>
    simp only [act]
    split
    · rename_i m i hp
      exact cover_frame t h (fun u e => Or.inl (by simp [setPC, e])) rfl rfl
        (by rw [hp]; cases i <;> simp [setPC, registered]) (by simp [setPC]) (by simp [setPC])
    · exact h
  | poll t w =>
    simp only [act]
    split
    · exact cover_frame t h (fun u e => Or.inl (by simp [setPC, e])) rfl rfl
        (by simp [setPC, registered]) (by simp [setPC]) (by simp [setPC])
    · exact h

theorem called_act (st : St V) (e : Ev) (h : Called st)
    (hcalm : ∀ t u r p m i, e = .run t → st.pc t = .nStored u r → st.pc p ≠ .wWill m i) :
    Called (act st e) := by
  cases e with
  | run t =>
    simp only [act]
    cases hs : step st t with
    | none => exact h
    | some st' => exact called_step st st' t h (fun u r p m i => hcalm t u r p m i rfl) hs
  | spurious t =>
    simp only [act]
    split
    · rename_i m i hp
      exact called_frame t h (fun u e => Or.inl (by simp [setPC, e])) (fun u x => x)
        (by simp [setPC]) (by rw [hp]; simp)
    · exact h
  | poll t w =>
    simp only [act]
    split
    · rename_i m hp
      exact called_frame t h (fun u e => Or.inl (by simp [setPC, e])) (fun u x => x)
        (by simp [setPC]) (by rw [hp]; simp)
    · exact h

theorem after_act (st : St V) (e : Ev) (hi : Inv st) (h : After st)
    (hnr : ∀ t, kind (st.pc t) ≠ .resetter) : After (act st e) := by
  cases e with
  | run t =>
    simp only [act]
    cases hs : step st t with
    | none => exact h
    | some st' => exact after_step st st' t hi.locks h (hnr t) hs
  | spurious t =>
    simp only [act]
    split
    · rename_i m i hp
      exact after_frame t h (fun u e => Or.inl (by simp [setPC, e])) rfl (fun _ => rfl)
        (by simp [setPC, holdsI]) (by rw [hp]; rfl) (by simp [setPC])
    · exact h
  | poll t w =>
    simp only [act]
    split
    · rename_i m hp
      exact after_frame t h (fun u e => Or.inl (by simp [setPC, e])) rfl (fun _ => rfl)
        (by simp [setPC, holdsI]) (by rw [hp]; rfl) (by simp [setPC])
    · exact h

theorem cover_init {pc : Nat → PC V} (h : Legal pc) : Cover (init pc) := by
  refine ⟨?_, ?_, ?_⟩
  · intro t ht
    have := h.begins t
    simp only [init] at ht
    generalize pc t = p at this ht
    cases this <;> simp [registered] at ht
  · intro n r hn
    have := h.begins n
    simp only [init] at hn
    rw [hn] at this; cases this
  · intro n u r hn
    have := h.begins n
    simp only [init] at hn
    rw [hn] at this; cases this

theorem called_init {pc : Nat → PC V} (h : Legal pc) : Called (init pc) := by
  intro t m _ hf
  simp [init] at hf

theorem after_init {pc : Nat → PC V} (h : Legal pc) : After (init pc) := by
  constructor
  · intro n hn
    have := h.begins n
    simp only [init] at hn
    generalize pc n = p at this hn
    cases this <;> simp [holdsI] at hn
  · intro n hn
    have := h.begins n
    simp only [init] at hn
    rw [hn] at this; cases this

theorem no_resetter_init {pc : Nat → PC V} (h : Legal pc) (hr : ∀ t, pc t ≠ .rStart) (t : Nat) :
    kind ((init pc).pc t) ≠ .resetter := by
  have := h.begins t
  have h2 := hr t
  simp only [init]
  generalize pc t = p at this h2
  cases this <;> simp_all [kind]

theorem cover_reach {pc : Nat → PC V} (h : Legal pc) (evs : List Ev) :
    Cover (run (init pc) evs) := by
  have : ∀ (evs : List Ev) (st : St V), Inv st → Cover st → Cover (run st evs) := by
    intro evs
    induction evs with
    | nil => intro st _ h; exact h
    | cons e es ih => intro st hi hk; exact ih _ (inv_act st e hi) (cover_act st e hi hk)
  exact this evs _ (inv_init h) (cover_init h)

theorem called_reach {pc : Nat → PC V} (h : Legal pc) (evs : List Ev)
    (hc : InterruptCalm (init pc) evs) : Called (run (init pc) evs) := by
  have : ∀ (evs : List Ev) (st : St V), Called st → InterruptCalm st evs → Called (run st evs) := by
    intro evs
    induction evs with
    | nil => intro st h _; exact h
    | cons e es ih => intro st hk hc; exact ih _ (called_act st e hk hc.1) hc.2
  exact this evs _ (called_init h) hc

theorem after_reach {pc : Nat → PC V} (h : Legal pc) (hr : ∀ t, pc t ≠ .rStart)
    (evs : List Ev) : After (run (init pc) evs) := by
  have : ∀ (evs : List Ev) (st : St V), Inv st → After st →
      (∀ t, kind (st.pc t) ≠ .resetter) → After (run st evs) := by
    intro evs
    induction evs with
    | nil => intro st _ h _; exact h
    | cons e es ih =>
      intro st hi hk hn
      exact ih _ (inv_act st e hi) (after_act st e hi hk hn) (fun t => by rw [kind_act]; exact hn t)
  exact this evs _ (inv_init h) (after_init h) (no_resetter_init h hr)

end Verif.Promise.Race
