/- Invariants of the races of a promise. -/
import Verif.Promise.RaceSpec

set_option linter.unusedSimpArgs false
set_option linter.unusedVariables false

namespace Verif.Promise.Race

variable {V : Type}

inductive Kind where
  | none | sender | waiter (m i : Bool) | poller | interrupter | resetter
  deriving DecidableEq

def kind : PC V → Kind
  | .idle => .none
  | .sStart _ | .sLocked _ | .sWritten | .sWoken | .sNotified | .sDone => .sender
  | .wPush m => .waiter m true
  | .wStart m i | .wLocked m i | .wLoop m i | .wWill m i | .wBlocked m i | .wRelock m i
  | .wGot m i | .wDone m i _ => .waiter m i
  | .pIdle _ | .pTake _ | .pGap _ | .pReady => .poller
  | .nStart | .nLoop _ | .nStored _ _ | .nDone => .interrupter
  | .rStart | .rDone => .resetter

def holds : PC V → Bool
  | .sLocked _ | .sWritten | .sWoken | .sNotified => true
  | .wLocked _ _ | .wLoop _ _ | .wWill _ _ | .wGot _ _ => true
  | _ => false

def holdsI : PC V → Bool
  | .nLoop _ | .nStored _ _ => true
  | _ => false

/-- A waiter that has not returned. -/
def active : PC V → Bool
  | .wPush _ | .wStart _ _ | .wLocked _ _ | .wLoop _ _ | .wWill _ _ | .wBlocked _ _
  | .wRelock _ _ | .wGot _ _ => true
  | _ => false

def posted : PC V → Bool
  | .sWritten | .sWoken | .sNotified | .sDone => true
  | _ => false

def notified : PC V → Bool
  | .sNotified | .sDone => true
  | _ => false

@[simp] theorem kind_awaken (p : PC V) : kind (awaken p) = kind p := by cases p <;> rfl
@[simp] theorem holds_awaken (p : PC V) : holds (awaken p) = holds p := by cases p <;> rfl
@[simp] theorem holdsI_awaken (p : PC V) : holdsI (awaken p) = holdsI p := by cases p <;> rfl
@[simp] theorem active_awaken (p : PC V) : active (awaken p) = active p := by cases p <;> rfl
@[simp] theorem posted_awaken (p : PC V) : posted (awaken p) = posted p := by cases p <;> rfl
@[simp] theorem notified_awaken (p : PC V) : notified (awaken p) = notified p := by
  cases p <;> rfl
theorem awaken_ne_blocked (p : PC V) (m i : Bool) : awaken p ≠ .wBlocked m i := by
  cases p <;> simp [awaken]
theorem awaken_eq_will {p : PC V} {m i : Bool} (h : awaken p = .wWill m i) : p = .wWill m i := by
  cases p <;> simp_all [awaken]

/-- The mutexes are held by the threads that think so. -/
structure Locks (st : St V) : Prop where
  lock : ∀ t, st.lock = some t ↔ holds (st.pc t) = true
  ilock : ∀ t, st.ilock = some t ↔ holdsI (st.pc t) = true

theorem locks_set (st : St V) (t : Nat) (p : PC V) (l il : Option Nat) (h : Locks st)
    (r : Option V) (w : Option Nat) (wk : List Nat) (s : Option V) (f : Nat → Bool) (tr : Bool)
    (ws : List Nat)
    (hl : (holds (st.pc t) = holds p ∧ l = st.lock) ∨ (st.lock = none ∧ l = some t ∧ holds p = true)
      ∨ (holds (st.pc t) = true ∧ l = none ∧ holds p = false))
    (hil : (holdsI (st.pc t) = holdsI p ∧ il = st.ilock)
      ∨ (st.ilock = none ∧ il = some t ∧ holdsI p = true)
      ∨ (holdsI (st.pc t) = true ∧ il = none ∧ holdsI p = false)) :
    Locks (setPC (⟨l, r, w, wk, s, f, il, tr, ws, st.pc⟩ : St V) t p) := by
  constructor
  · intro u
    have hu := h.lock u
    have ht := h.lock t
    by_cases e : u = t
    · subst e
      rcases hl with ⟨h1, h2⟩ | ⟨h1, h2, h3⟩ | ⟨h1, h2, h3⟩ <;> simp_all [setPC]
    · have e' : ¬ t = u := fun x => e x.symm
      rcases hl with ⟨h1, h2⟩ | ⟨h1, h2, h3⟩ | ⟨h1, h2, h3⟩ <;> simp_all [setPC]
      all_goals
        cases hh : holds (st.pc u) <;> simp_all
  · intro u
    have hu := h.ilock u
    have ht := h.ilock t
    by_cases e : u = t
    · subst e
      rcases hil with ⟨h1, h2⟩ | ⟨h1, h2, h3⟩ | ⟨h1, h2, h3⟩ <;> simp_all [setPC]
    · have e' : ¬ t = u := fun x => e x.symm
      rcases hil with ⟨h1, h2⟩ | ⟨h1, h2, h3⟩ | ⟨h1, h2, h3⟩ <;> simp_all [setPC]
      all_goals
        cases hh : holdsI (st.pc u) <;> simp_all

theorem locks_notify (st : St V) (h : Locks st) : Locks (notifyAll st) :=
  ⟨fun t => by simpa [notifyAll] using h.lock t, fun t => by simpa [notifyAll] using h.ilock t⟩

theorem locks_step (st st' : St V) (t : Nat) (h : Locks st) (hs : step st t = some st') :
    Locks st' := by
  have hn := locks_notify st h
  unfold step at hs
  split at hs <;> rename_i hp
  all_goals (try split at hs) <;> (try split at hs) <;>
    simp only [Option.some.injEq, reduceCtorEq] at hs
  all_goals subst hs
  all_goals first
    | (refine locks_set st t _ _ _ h _ _ _ _ _ _ _ ?_ ?_ <;> simp_all [holds, holdsI]; done)
    | (refine locks_set (notifyAll st) t _ _ _ hn _ _ _ _ _ _ _ ?_ ?_ <;>
        simp_all [notifyAll, holds, holdsI, awaken]; done)

theorem kind_step (st st' : St V) (t u : Nat) (hs : step st t = some st') :
    kind (st'.pc u) = kind (st.pc u) := by
  unfold step at hs
  split at hs <;> rename_i hp
  all_goals (try split at hs) <;> (try split at hs) <;>
    simp only [Option.some.injEq, reduceCtorEq] at hs
  all_goals subst hs
  all_goals
    by_cases e : u = t
    · subst e; simp [setPC, hp, kind]
    · simp [setPC, notifyAll, e]

theorem kind_act (st : St V) (e : Ev) (u : Nat) : kind ((act st e).pc u) = kind (st.pc u) := by
  cases e with
  | run t =>
    simp only [act]
    cases hs : step st t with
    | none => rfl
    | some st' => exact kind_step st st' t u hs
  | spurious t =>
    simp only [act]
    split
    · rename_i m i hp
      by_cases e : u = t <;> simp_all [setPC, kind]
    · rfl
  | poll t w =>
    simp only [act]
    split
    · rename_i l hp
      by_cases e : u = t <;> simp_all [setPC, kind]
    · rfl

/-- Who else is there. -/
structure Kinds (st : St V) : Prop where
  one : ∀ t u, kind (st.pc t) = .sender → kind (st.pc u) = .sender → t = u
  poller : ∀ t u, kind (st.pc t) = .poller → active (st.pc u) = false
  mutable : ∀ t u i, kind (st.pc t) = .waiter true i → t ≠ u → active (st.pc u) = false
  pollers : ∀ t u, kind (st.pc t) = .poller → kind (st.pc u) = .poller → t = u
  poller' : ∀ t u m i, kind (st.pc t) = .poller → kind (st.pc u) ≠ .waiter m i
  mutable' : ∀ t u i m j, kind (st.pc t) = .waiter true i → kind (st.pc u) = .waiter m j → t = u

theorem active_kind {p : PC V} (h : active p = true) : ∃ m i, kind p = .waiter m i := by
  cases p <;> simp_all [active, kind]

theorem kinds_of {st st' : St V} (h : Kinds st)
    (hk : ∀ u, kind (st'.pc u) = kind (st.pc u)) : Kinds st' := by
  refine ⟨?_, ?_, ?_, ?_, ?_, ?_⟩
  · intro t u; rw [hk, hk]; exact h.one t u
  · intro t u ht
    cases ha : active (st'.pc u) with
    | false => rfl
    | true =>
      obtain ⟨m, i, hm⟩ := active_kind ha
      rw [hk] at ht hm
      exact absurd hm (h.poller' t u m i ht)
  · intro t u i ht hne
    cases ha : active (st'.pc u) with
    | false => rfl
    | true =>
      obtain ⟨m, j, hm⟩ := active_kind ha
      rw [hk] at ht hm
      exact absurd (h.mutable' t u i m j ht hm) hne
  · intro t u; rw [hk, hk]; exact h.pollers t u
  · intro t u m i; rw [hk, hk]; exact h.poller' t u m i
  · intro t u i m j; rw [hk, hk]; exact h.mutable' t u i m j

/-- A result that was posted is there until the only receiver takes it, and nobody sleeps
once the waiters have been notified. -/
structure Post (st : St V) : Prop where
  there : ∀ s, posted (st.pc s) = true → st.result.isSome = true ∨ ∀ u, active (st.pc u) = false
  will : ∀ s u m i, posted (st.pc s) = true → st.pc u ≠ .wWill m i
  awake : ∀ s u m i, notified (st.pc s) = true → st.pc u ≠ .wBlocked m i

theorem posted_of_notified {p : PC V} (h : notified p = true) : posted p = true := by
  cases p <;> simp_all [notified, posted]

theorem posted_sender {p : PC V} (h : posted p = true) : kind p = .sender := by
  cases p <;> simp_all [posted, kind]

theorem lock_unique {st : St V} (h : Locks st) {t u : Nat} (ht : holds (st.pc t) = true)
    (hu : holds (st.pc u) = true) : t = u := by
  have := (h.lock t).2 ht
  have h2 := (h.lock u).2 hu
  rw [this] at h2
  exact Option.some.inj h2

/-- A step that changes neither the result nor the sender, and makes no thread sleep. -/
theorem post_quiet {st st' : St V} (h : Post st)
    (hr : st.result.isSome = true → st'.result.isSome = true ∨ ∀ u, active (st'.pc u) = false)
    (hact : ∀ u, active (st'.pc u) = true → active (st.pc u) = true)
    (hp : ∀ u, posted (st'.pc u) = posted (st.pc u))
    (hn : ∀ u, notified (st'.pc u) = notified (st.pc u))
    (hw : ∀ s u m i, posted (st.pc s) = true → st'.pc u = .wWill m i → st.pc u = .wWill m i)
    (hb : ∀ s u m i, notified (st.pc s) = true → st'.pc u = .wBlocked m i →
      st.pc u = .wBlocked m i) :
    Post st' := by
  refine ⟨?_, ?_, ?_⟩
  · intro s hs
    rw [hp] at hs
    rcases h.there s hs with h1 | h1
    · exact hr h1
    · right
      intro u
      cases ha : active (st'.pc u) with
      | false => rfl
      | true => have := hact u ha; rw [h1 u] at this; simp at this
  · intro s u m i hs hu
    rw [hp] at hs
    exact h.will s u m i hs (hw s u m i hs hu)
  · intro s u m i hs hu
    rw [hn] at hs
    exact h.awake s u m i hs (hb s u m i hs hu)

theorem post_step (st st' : St V) (t : Nat) (hl : Locks st) (hk : Kinds st) (h : Post st)
    (hs : step st t = some st') : Post st' := by
  have hks := fun u => kind_step st st' t u hs
  have hl' := locks_step st st' t hl hs
  have key : ∀ p : PC V, st.pc t = p → step st t = some st' → Post st' := by
    intro p hp hs
    have simple : ∀ q : PC V, (posted q = posted p) → notified q = notified p →
        (active q = true → active p = true) → (∀ m i, q ≠ .wBlocked m i) → (∀ m i, q ≠ .wWill m i) →
        ∀ r : Option V, (st.result.isSome = true → r.isSome = true) →
        ∀ l w wk s f il tr ws, Post (setPC (⟨l, r, w, wk, s, f, il, tr, ws, st.pc⟩ : St V) t q) := by
      intro q h1 h2 h3 h4 h5 r hr l w wk s f il tr ws
      refine post_quiet h (fun x => Or.inl (hr x)) ?_ ?_ ?_ ?_ ?_
      · intro u; by_cases e : u = t <;> simp_all [setPC]
      · intro u; by_cases e : u = t <;> simp_all [setPC]
      · intro u; by_cases e : u = t <;> simp_all [setPC]
      · intro s u m i _ hu
        by_cases e : u = t
        · simp [setPC, e] at hu; exact absurd hu (h5 m i)
        · simpa [setPC, e] using hu
      · intro s u m i _ hu
        by_cases e : u = t
        · simp [setPC, e] at hu; exact absurd hu (h4 m i)
        · simpa [setPC, e] using hu
    unfold step at hs
    rw [hp] at hs
    cases p <;> (try dsimp only at hs)
    case sLocked v =>
      simp only [Option.some.injEq] at hs
      subst hs
      have htk : kind (st.pc t) = .sender := by rw [hp]; rfl
      refine ⟨fun s _ => Or.inl rfl, ?_, ?_⟩
      · intro s u m i _ hu
        have h1 : holds (st.pc t) = true := by rw [hp]; rfl
        by_cases e : u = t
        · subst e; simp [setPC] at hu
        · simp [setPC, e] at hu
          exact e (lock_unique hl (by rw [hu]; rfl) h1)
      · intro s u m i hs
        by_cases e : s = t
        · subst e; simp [setPC, notified] at hs
        · simp [setPC, e] at hs
          exact absurd (hk.one s t (posted_sender (posted_of_notified hs)) htk) e
    case sWoken =>
      simp only [Option.some.injEq] at hs
      subst hs
      have h1 : posted (st.pc t) = true := by rw [hp]; rfl
      refine ⟨?_, ?_, ?_⟩
      · intro s _
        rcases h.there t h1 with h2 | h2
        · exact Or.inl h2
        · right; intro u; by_cases e : u = t
          · subst e; simp [setPC, active]
          · simp [setPC, notifyAll, e, h2]
      · intro s u m i _ hu
        by_cases e : u = t
        · subst e; simp [setPC] at hu
        · simp [setPC, e, notifyAll] at hu
          exact h.will t u m i h1 (awaken_eq_will hu)
      · intro s u m i _ hu
        by_cases e : u = t
        · subst e; simp [setPC] at hu
        · simp [setPC, e, notifyAll] at hu
          exact awaken_ne_blocked _ m i hu
    case nStored x rest =>
      simp only [Option.some.injEq] at hs
      subst hs
      refine post_quiet h (fun x => Or.inl x) ?_ ?_ ?_ ?_ ?_
      · intro u; by_cases e : u = t
        · subst e; simp [setPC, notifyAll, active, hp]
        · simp [setPC, notifyAll, e]
      · intro u; by_cases e : u = t
        · subst e; simp [setPC, notifyAll, posted, hp]
        · simp [setPC, notifyAll, e]
      · intro u; by_cases e : u = t
        · subst e; simp [setPC, notifyAll, notified, hp]
        · simp [setPC, notifyAll, e]
      · intro s u m i _ hu
        by_cases e : u = t
        · subst e; simp [setPC] at hu
        · simp [setPC, e, notifyAll] at hu; exact awaken_eq_will hu
      · intro s u m i _ hu
        by_cases e : u = t
        · subst e; simp [setPC] at hu
        · simp [setPC, e, notifyAll] at hu; exact absurd hu (awaken_ne_blocked _ m i)
    case wWill m i =>
      simp only [Option.some.injEq] at hs
      subst hs
      refine post_quiet h (fun x => Or.inl x) ?_ ?_ ?_ ?_ ?_
      · intro u; by_cases e : u = t <;> simp_all [setPC, active]
      · intro u; by_cases e : u = t <;> simp_all [setPC, posted]
      · intro u; by_cases e : u = t <;> simp_all [setPC, notified]
      · intro s u m i _ hu
        by_cases e : u = t
        · subst e; simp [setPC] at hu
        · simpa [setPC, e] using hu
      · intro s u m i hns hu
        by_cases e : u = t
        · rw [e] at *; exact absurd hp (h.will s t _ _ (posted_of_notified hns))
        · simpa [setPC, e] using hu
    case wLoop m i =>
      split at hs <;> simp only [Option.some.injEq] at hs <;> subst hs
      · (refine simple _ ?_ ?_ ?_ ?_ ?_ _ ?_ _ _ _ _ _ _ _ _ <;>
          first | rfl | (simp [active]; done) | exact id)
      · rename_i hc
        refine post_quiet h (fun x => Or.inl x) ?_ ?_ ?_ ?_ ?_
        · intro u; by_cases e : u = t <;> simp_all [setPC, active]
        · intro u; by_cases e : u = t <;> simp_all [setPC, posted]
        · intro u; by_cases e : u = t <;> simp_all [setPC, notified]
        · intro s u m i hs hu
          by_cases e : u = t
          · rcases h.there s hs with h2 | h2
            · simp [h2] at hc
            · have := h2 t; rw [hp] at this; simp [active] at this
          · simpa [setPC, e] using hu
        · intro s u m i hs hu
          by_cases e : u = t
          · subst e; simp [setPC] at hu
          · simpa [setPC, e] using hu
    case wGot m i =>
      split at hs <;> simp only [Option.some.injEq] at hs <;> subst hs
      · rename_i hm
        subst hm
        refine post_quiet h (fun _ => Or.inr ?_) ?_ ?_ ?_ ?_ ?_
        · intro u
          by_cases e : u = t
          · subst e; simp [setPC, active]
          · simp only [setPC, e, if_false]
            exact hk.mutable t u i (by rw [hp]; rfl) (fun x => e x.symm)
        · intro u; by_cases e : u = t <;> simp_all [setPC, active]
        · intro u; by_cases e : u = t <;> simp_all [setPC, posted]
        · intro u; by_cases e : u = t <;> simp_all [setPC, notified]
        · intro s u m i _; by_cases e : u = t <;> simp_all [setPC]
        · intro s u m i _; by_cases e : u = t <;> simp_all [setPC]
      · (refine simple _ ?_ ?_ ?_ ?_ ?_ _ ?_ _ _ _ _ _ _ _ _ <;>
          first | rfl | (simp [active]; done) | exact id)
    case pTake w =>
      have hpk : kind (st.pc t) = .poller := by rw [hp]; rfl
      split at hs <;> (try split at hs) <;>
        simp only [Option.some.injEq, reduceCtorEq] at hs <;> subst hs
      · refine post_quiet h (fun _ => Or.inr ?_) ?_ ?_ ?_ ?_ ?_
        · intro u
          by_cases e : u = t
          · subst e; simp [setPC, active]
          · simp only [setPC, e, if_false]
            exact hk.poller t u hpk
        · intro u; by_cases e : u = t <;> simp_all [setPC, active]
        · intro u; by_cases e : u = t <;> simp_all [setPC, posted]
        · intro u; by_cases e : u = t <;> simp_all [setPC, notified]
        · intro s u m i _; by_cases e : u = t <;> simp_all [setPC]
        · intro s u m i _; by_cases e : u = t <;> simp_all [setPC]
      · (refine simple _ ?_ ?_ ?_ ?_ ?_ _ ?_ _ _ _ _ _ _ _ _ <;>
          first | rfl | (simp [active]; done) | exact id)
    case nLoop rest =>
      cases rest <;> simp only [Option.some.injEq] at hs <;> subst hs <;>
        (refine simple _ ?_ ?_ ?_ ?_ ?_ _ ?_ _ _ _ _ _ _ _ _ <;>
          first | rfl | (simp [active]; done) | exact id)
    all_goals
      (try split at hs) <;> (try split at hs) <;>
        simp only [Option.some.injEq, reduceCtorEq] at hs <;> subst hs <;>
        (refine simple _ ?_ ?_ ?_ ?_ ?_ _ ?_ _ _ _ _ _ _ _ _ <;>
          first | rfl | (simp [active]; done) | exact id)
  exact key _ rfl hs

structure Inv (st : St V) : Prop where
  locks : Locks st
  kinds : Kinds st
  post : Post st

theorem inv_act (st : St V) (e : Ev) (h : Inv st) : Inv (act st e) := by
  refine ⟨?_, kinds_of h.kinds (kind_act st e), ?_⟩
  · cases e with
    | run t =>
      simp only [act]
      cases hs : step st t with
      | none => exact h.locks
      | some st' => exact locks_step st st' t h.locks hs
    | spurious t =>
      simp only [act]
      split
      · exact locks_set st t _ _ _ h.locks _ _ _ _ _ _ _ (by simp_all [holds])
          (by simp_all [holdsI])
      · exact h.locks
    | poll t w =>
      simp only [act]
      split
      · exact locks_set st t _ _ _ h.locks _ _ _ _ _ _ _ (by simp_all [holds])
          (by simp_all [holdsI])
      · exact h.locks
  · cases e with
    | run t =>
      simp only [act]
      cases hs : step st t with
      | none => exact h.post
      | some st' => exact post_step st st' t h.locks h.kinds h.post hs
    | spurious t =>
      simp only [act]
      split
      · refine post_quiet h.post (fun x => Or.inl x) ?_ ?_ ?_ ?_ ?_
        · intro u; by_cases e : u = t <;> simp_all [setPC, active]
        · intro u; by_cases e : u = t <;> simp_all [setPC, posted]
        · intro u; by_cases e : u = t <;> simp_all [setPC, notified]
        · intro s u m i _; by_cases e : u = t <;> simp_all [setPC]
        · intro s u m i _; by_cases e : u = t <;> simp_all [setPC]
      · exact h.post
    | poll t w =>
      simp only [act]
      split
      · refine post_quiet h.post (fun x => Or.inl x) ?_ ?_ ?_ ?_ ?_
        · intro u; by_cases e : u = t <;> simp_all [setPC, active]
        · intro u; by_cases e : u = t <;> simp_all [setPC, posted]
        · intro u; by_cases e : u = t <;> simp_all [setPC, notified]
        · intro s u m i _; by_cases e : u = t <;> simp_all [setPC]
        · intro s u m i _; by_cases e : u = t <;> simp_all [setPC]
      · exact h.post

theorem begins_sender {p : PC V} (h : Begins p) (hk : kind p = .sender) : ∃ v, p = .sStart v := by
  cases h <;> simp_all [kind]

theorem begins_poller {p : PC V} (h : Begins p) (hk : kind p = .poller) : p = .pIdle none := by
  cases h <;> simp_all [kind]

theorem begins_receives {p : PC V} (h : Begins p) {m i : Bool} (hk : kind p = .waiter m i) :
    Receives p := by
  cases h <;> simp_all [kind] <;> constructor

theorem begins_exclusive {p : PC V} (h : Begins p) {i : Bool} (hk : kind p = .waiter true i) :
    Exclusive p := by
  cases h <;> simp_all [kind] <;> constructor

theorem inv_init {pc : Nat → PC V} (h : Legal pc) : Inv (init pc) := by
  have nowl : ∀ u m i, pc u ≠ .wWill m i := by
    intro u m i; have := h.begins u; intro e; rw [e] at this; cases this
  have nopost : ∀ u, posted (pc u) = false := by
    intro u; have := h.begins u; generalize pc u = p at this; cases this <;> rfl
  refine ⟨⟨?_, ?_⟩, ⟨?_, ?_, ?_, ?_, ?_, ?_⟩, ⟨?_, ?_, ?_⟩⟩
  · intro t
    have := h.begins t
    simp only [init]
    generalize pc t = p at this
    cases this <;> simp [holds]
  · intro t
    have := h.begins t
    simp only [init]
    generalize pc t = p at this
    cases this <;> simp [holdsI]
  · intro t u ht hu
    obtain ⟨v, hv⟩ := begins_sender (h.begins t) ht
    obtain ⟨w, hw⟩ := begins_sender (h.begins u) hu
    exact h.oneSender t u v w hv hw
  · intro t u ht
    cases ha : active ((init pc).pc u) with
    | false => rfl
    | true =>
      obtain ⟨m, i, hm⟩ := active_kind ha
      have h1 := begins_poller (h.begins t) ht
      have h2 := begins_receives (h.begins u) hm
      have := h.exclusive t u (by rw [h1]; constructor) h2
      subst this
      rw [show (init pc).pc t = pc t from rfl, h1] at hm
      simp [kind] at hm
  · intro t u i ht hne
    cases ha : active ((init pc).pc u) with
    | false => rfl
    | true =>
      obtain ⟨m, j, hm⟩ := active_kind ha
      exact absurd (h.exclusive t u (begins_exclusive (h.begins t) ht)
        (begins_receives (h.begins u) hm)) hne
  · intro t u ht hu
    have h1 := begins_poller (h.begins t) ht
    have h2 := begins_poller (h.begins u) hu
    exact h.exclusive t u (by rw [h1]; constructor) (by rw [h2]; constructor)
  · intro t u m i ht hu
    have h1 := begins_poller (h.begins t) ht
    have := h.exclusive t u (by rw [h1]; constructor) (begins_receives (h.begins u) hu)
    subst this
    rw [ht] at hu; simp at hu
  · intro t u i m j ht hu
    exact h.exclusive t u (begins_exclusive (h.begins t) ht) (begins_receives (h.begins u) hu)
  · intro s hs
    simp only [init, nopost] at hs; simp at hs
  · intro s u m i hs
    simp only [init, nopost] at hs; simp at hs
  · intro s u m i hs
    have := posted_of_notified hs
    simp only [init, nopost] at this; simp at this

theorem run_nil (st : St V) : run st [] = st := rfl
theorem run_cons (st : St V) (e : Ev) (es : List Ev) : run st (e :: es) = run (act st e) es := rfl

theorem inv_run (st : St V) (evs : List Ev) (h : Inv st) : Inv (run st evs) := by
  induction evs generalizing st with
  | nil => exact h
  | cons e es ih => exact ih _ (inv_act st e h)

theorem inv_reach {pc : Nat → PC V} (h : Legal pc) (evs : List Ev) : Inv (run (init pc) evs) :=
  inv_run _ _ (inv_init h)

/-- If nothing can happen then every call has returned or waits for the result. -/
theorem stuck_shape {st : St V} (h : Locks st) (hs : Stuck st) (t : Nat) :
    Returned (st.pc t) ∨ ∃ m i, st.pc t = .wBlocked m i := by
  have hl : st.lock = none := by
    cases hl : st.lock with
    | none => rfl
    | some u =>
      have h1 := (h.lock u).1 hl
      have h2 := hs u
      unfold step at h2
      cases hp : st.pc u <;> rw [hp] at h1 h2 <;> simp [holds] at h1 <;> simp at h2
      all_goals (split at h2 <;> contradiction)
  have hil : st.ilock = none := by
    cases hl : st.ilock with
    | none => rfl
    | some u =>
      have h1 := (h.ilock u).1 hl
      have h2 := hs u
      unfold step at h2
      cases hp : st.pc u <;> rw [hp] at h1 h2 <;> simp [holdsI] at h1 <;> simp at h2
      all_goals (split at h2 <;> contradiction)
  have h2 := hs t
  unfold step at h2
  cases hp : st.pc t <;> rw [hp] at h2 <;> simp [hl, hil] at h2
  all_goals first
    | (left; constructor; done)
    | (right; exact ⟨_, _, rfl⟩)
    | (split at h2 <;> contradiction)

end Verif.Promise.Race
