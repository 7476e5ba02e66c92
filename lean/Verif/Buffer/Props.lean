import Verif.Buffer.Lemmas

/-
Property theorems C01–C06 about buffers. `Storage`, `step`, `run` model
src/buffer/buffer_storage.rs; the specification is in `Spec.lean`.
-/
namespace Verif.Buffer

set_option linter.unusedSectionVars false

variable {S T : Type} [DecidableEq S]

/-- **C01**. Start from any state that the buffer can be in after a history `past`
(of any calls on any sessions), with session `s` in use. If afterwards all calls on
`s` are pushes (from the workflow or through a key), in any interleaving with
arbitrary calls on other sessions, then the readable contents of `s` are the
retention window of the old contents followed by everything pushed since. -/
theorem C01_retention_window (r : Retention) (past ops : List (S × Op T)) (s : S)
    (hreg : Regular r (past ++ ops))
    (hactive : (run (Storage.new r) past).1.queues s ≠ none)
    (hs : ∀ op, (s, op) ∈ ops → ∃ v, op = .forcePush v ∨ op = .push v) :
    (run (Storage.new r) (past ++ ops)).1.iter s =
      window r ((run (Storage.new r) past).1.iter s ++ pushedTo s ops) := by
  rw [run_append]
  have hi : Inv (run (Storage.new r : Storage S T) past).1 :=
    run_inv _ _ (inv_new r) fun e c hc => hreg e c (by simp [hc])
  have hret : (run (Storage.new r : Storage S T) past).1.retention = r := run_retention _ _
  cases hq : (run (Storage.new r : Storage S T) past).1.queues s with
  | none => exact absurd hq hactive
  | some q =>
    have hf : fits r q.reverse := by
      have := hi s q hq
      rw [hret] at this
      exact fits_of_length_le this (by simp)
    have hit : (run (Storage.new r : Storage S T) past).1.iter s = q.reverse := by
      simp [Storage.iter, hq]
    rw [hit]
    exact pushes_window r ops s _ q.reverse hret hi
      (by rw [hq, window_of_fits r _ hf, List.reverse_reverse]) hs
      fun e c hc => hreg e c (by simp [hc])

/-- **C01**, for a session that has not been used before: the first workflow push
opens the session. -/
theorem C01_retention_window_fresh (r : Retention) (past ops : List (S × Op T)) (s : S)
    (hreg : Regular r (past ++ ops))
    (hfresh : (run (Storage.new r) past).1.queues s = none)
    (hs : ∀ op, (s, op) ∈ ops → ∃ v, op = .forcePush v) :
    (run (Storage.new r) (past ++ ops)).1.iter s = window r (pushedTo s ops) := by
  rw [run_append]
  have hi : Inv (run (Storage.new r : Storage S T) past).1 :=
    run_inv _ _ (inv_new r) fun e c hc => hreg e c (by simp [hc])
  have hret : (run (Storage.new r : Storage S T) past).1.retention = r := run_retention _ _
  have hreg' : Regular r ops := fun e c hc => hreg e c (by simp [hc])
  generalize hb : (run (Storage.new r : Storage S T) past).1 = b at *
  clear hreg hb
  induction ops generalizing b with
  | nil => cases r <;> simp [run, Storage.iter, hfresh, pushedTo, window]
  | cons c ops ih =>
    obtain ⟨s', op⟩ := c
    have hreg'' : Regular r ops := fun e c hc' => hreg' e c (by simp [hc'])
    have hinv' : Inv (step b s' op).1 :=
      step_inv b s' op hi fun e => hreg' (hret ▸ e) (s', op) (by simp)
    have hret' : (step b s' op).1.retention = r := by rw [step_retention, hret]
    by_cases he : s' = s
    · subst he
      obtain ⟨v, rfl⟩ := hs op (by simp)
      have hkey : (step b s' (.forcePush v)).1.queues s' =
          some (window r ([] ++ [v])).reverse := by
        have hp := implPush_reverse ([] : List T) r v (fun _ => rfl)
        have hw : window r ([] : List T) = [] := by cases r <;> simp [window]
        have h2 := specPush_window r ([] : List T) v
        rw [hw] at h2
        rw [List.reverse_nil] at hp
        have hp1 : (implPush [] r v).1 = (window r ([] ++ [v])).reverse := by
          rw [← h2, ← hp, List.reverse_reverse]
        simp [step, Storage.forcePush, hfresh, Storage.set, hret, hp1]
      have := pushes_window r ops s' (step b s' (.forcePush v)).1 ([] ++ [v]) hret' hinv' hkey
        (fun op h => by
          obtain ⟨w, hw⟩ := hs op (by simp [h])
          exact ⟨w, Or.inl hw⟩) hreg''
      simp only [run]
      rw [this]
      simp [pushedTo]
    · have hfr := step_frame b s' s op (fun e => he e.symm)
      have := ih (fun op h => hs op (by simp [h])) hreg'' (step b s' op).1
        (by rw [hfr, hfresh]) hinv' hret'
      simp only [run]
      rw [this]
      cases op <;> simp [pushedTo, he]

/-- Hypotheses of C01 are met: two sessions, capacity 2, other session pulls. -/
example : (run (Storage.new (.keepLast 2) : Storage Nat Nat)
    ([(1, .forcePush 10), (2, .forcePush 7)] ++
     [(1, .push 11), (2, .pull), (1, .forcePush 12)])).1.iter 1 = [11, 12] := by
  rw [C01_retention_window (.keepLast 2) [(1, .forcePush 10), (2, .forcePush 7)]
    [(1, .push 11), (2, .pull), (1, .forcePush 12)] 1
    (by intro h; cases h) (by decide)
    (by intro op h; simp at h; rcases h with rfl | rfl <;> simp)]
  rfl

/-- Hypotheses of the fresh case are met (`KeepFirst(1)`). -/
example : (run (Storage.new (.keepFirst 1) : Storage Nat Nat)
    ([(2, .forcePush 7)] ++ [(1, .forcePush 11), (2, .clear), (1, .forcePush 12)])).1.iter 1
      = [11] := by
  rw [C01_retention_window_fresh (.keepFirst 1) [(2, .forcePush 7)]
    [(1, .forcePush 11), (2, .clear), (1, .forcePush 12)] 1
    (by intro h; cases h) rfl
    (by intro op h; simp at h; rcases h with rfl | rfl <;> simp)]
  rfl

/-- The full statement of C02: every history of calls has the observations of the
documented double-ended queue, and leaves the contents the specification has. -/
def C02_full : Prop :=
  ∀ (r : Retention) (ops : List (Nat × Op Nat)),
    (run (Storage.new r) ops).2 = (specRun ⟨r, fun _ => none⟩ ops).2 ∧
    ∀ s, (run (Storage.new r) ops).1.iter s =
      ((specRun ⟨r, fun _ => none⟩ ops).1.content s).getD []

/-- **C02** (partial): every history that avoids ranged drains (see C05) and
`push_as_oldest` on a zero-capacity `KeepFirst` buffer (see C03) has exactly the
observations and contents of the oldest-first list specification. -/
theorem C02_refines_list_partial (r : Retention) (ops : List (S × Op T))
    (hreg : Regular r ops) (hd : ∀ c ∈ ops, notRangedDrain c.2 = true) :
    (run (Storage.new r) ops).2 = (specRun ⟨r, fun _ => none⟩ ops).2 ∧
    ∀ s, (run (Storage.new r) ops).1.iter s =
      ((specRun ⟨r, fun _ => none⟩ ops).1.content s).getD [] := by
  have key : ∀ (ops : List (S × Op T)) (b : Storage S T), Inv b → Regular b.retention ops →
      (∀ c ∈ ops, notRangedDrain c.2 = true) →
      (abs (run b ops).1, (run b ops).2) = specRun (abs b) ops := by
    intro ops
    induction ops with
    | nil => intros; rfl
    | cons c ops ih =>
      intro b hi hr hd
      obtain ⟨s, op⟩ := c
      have h1 := step_refines b s op hi (fun e => hr e (s, op) (by simp)) (hd (s, op) (by simp))
      have h2 := ih (step b s op).1 (step_inv b s op hi fun e => hr e (s, op) (by simp))
        (by rw [step_retention]; exact fun e c hc => hr e c (by simp [hc]))
        (fun c hc => hd c (by simp [hc]))
      have e1 : abs (step b s op).1 = (specStep (abs b) s op).1 := congrArg Prod.fst h1
      have e2 : (step b s op).2 = (specStep (abs b) s op).2 := congrArg Prod.snd h1
      simp only [run, specRun]
      rw [← e1, ← e2, ← h2]
  have h := key ops (Storage.new r) (inv_new r) hreg hd
  have h0 : abs (Storage.new r : Storage S T) = ⟨r, fun _ => none⟩ := rfl
  rw [h0] at h
  refine ⟨congrArg Prod.snd h, fun s => ?_⟩
  have h1 : abs (run (Storage.new r) ops).1 = (specRun ⟨r, fun _ => none⟩ ops).1 :=
    congrArg Prod.fst h
  rw [← h1]
  simp only [abs, Storage.iter]
  cases (run (Storage.new r) ops).1.queues s <;> rfl

example : ∃ ops : List (Nat × Op Nat), Regular (.keepLast 2) ops ∧
    (∀ c ∈ ops, notRangedDrain c.2 = true) ∧
    (run (Storage.new (.keepLast 2)) ops).2 =
      [.item none, .item none, .item (some 1), .item (some 2), .items [2, 3], .item (some 3)] :=
  ⟨[(0, .forcePush 1), (0, .push 2), (0, .push 3), (0, .oldest), (0, .readAll), (0, .pullNewest)],
    (by intro h; cases h), by decide, by decide⟩

/-- The full statement of C03. -/
def C03_full : Prop :=
  ∀ (r : Retention) (ops : List (Nat × Op Nat)) (s n : Nat),
    r.capacity = some n → (run (Storage.new r) ops).1.count s ≤ n

/-- **C03** (partial): no history whatsoever makes a session hold more than the
capacity, except `push_as_oldest` with `KeepFirst(0)`. -/
theorem C03_capacity_partial (r : Retention) (ops : List (S × Op T)) (s : S) (n : Nat)
    (hn : r.capacity = some n) (hreg : Regular r ops) :
    (run (Storage.new r) ops).1.count s ≤ n := by
  have hi := run_inv (Storage.new r : Storage S T) ops (inv_new r) hreg
  have hret : (run (Storage.new r : Storage S T) ops).1.retention = r := run_retention _ _
  simp only [Storage.count]
  split
  · rename_i q hq
    exact hi s q hq n (by rw [hret, hn])
  · omega

example : Regular (.keepFirst 2) ([(0, .forcePush 1), (0, .pushAsOldest 2), (0, .pushAsOldest 3)] :
    List (Nat × Op Nat)) := by intro h; cases h

/-- **C03** is false of the code: `push_as_oldest` stores a value in a
`KeepFirst(0)` buffer (buffer_storage.rs:112-118). -/
theorem C03_capacity_violated : ¬ C03_full := by
  intro h
  have := h (.keepFirst 0) [(0, .ensure), (0, .pushAsOldest 5)] 0 0 rfl
  revert this
  decide

/-- The same corner also falsifies C02 in full. -/
theorem C02_refines_list_violated : ¬ C02_full := by
  intro h
  have := (h (.keepFirst 0) [(0, .ensure), (0, .pushAsOldest 5)]).1
  revert this
  decide

/-- **C04**. Calls on other sessions are invisible: in every history, the contents
and the observations of session `s` are those of the history restricted to the
calls on `s`. -/
theorem C04_sessions_isolated (b : Storage S T) (ops : List (S × Op T)) (s : S) :
    (run b ops).1.iter s = (run b (callsOf s ops)).1.iter s ∧
    outsOf s ops (run b ops).2 = (run b (callsOf s ops)).2 := by
  have hstep := step_local s (T := T)
  have key : ∀ (ops : List (S × Op T)) (b b' : Storage S T), b.retention = b'.retention →
      b.queues s = b'.queues s →
      (run b ops).1.queues s = (run b' (callsOf s ops)).1.queues s ∧
      outsOf s ops (run b ops).2 = (run b' (callsOf s ops)).2 := by
    intro ops
    induction ops with
    | nil => intro b b' _ hq; exact ⟨hq, rfl⟩
    | cons c ops ih =>
      intro b b' hr hq
      obtain ⟨s', op⟩ := c
      by_cases he : s' = s
      · subst he
        have h1 := hstep b b' op hr hq
        have h2 := ih (step b s' op).1 (step b' s' op).1
          (by rw [step_retention, step_retention, hr]) h1.1
        have ec : callsOf s' ((s', op) :: ops) = (s', op) :: callsOf s' ops := by
          simp [callsOf]
        rw [ec]
        simp only [run]
        refine ⟨h2.1, ?_⟩
        rw [← h2.2, ← h1.2]
        simp [outsOf]
      · have hfr := step_frame b s' s op (fun e => he e.symm)
        have h2 := ih (step b s' op).1 b' (by rw [step_retention, hr]) (by rw [hfr, hq])
        have ec : callsOf s ((s', op) :: ops) = callsOf s ops := by
          simp [callsOf, he]
        rw [ec]
        simp only [run]
        refine ⟨h2.1, ?_⟩
        rw [← h2.2]
        simp [outsOf, he]
  have h := key ops b b rfl rfl
  refine ⟨?_, h.2⟩
  simp only [Storage.iter, h.1]

example : (run (Storage.new .keepAll : Storage Nat Nat)
    [(1, .forcePush 1), (2, .forcePush 2), (2, .clear), (1, .pull)]).2 =
      [.item none, .item none, .unit, .item (some 1)] := by decide

/-- The full statement of C05: a drained range denotes the documented indices. -/
def C05_full : Prop :=
  ∀ (b : Storage Nat Nat) (s lo hi : Nat) (l : List Nat), b.iter s = l →
    lo ≤ hi → hi ≤ l.length → b.queues s ≠ none →
    (step b s (.drain lo hi)).2 = .items ((l.take hi).drop lo) ∧
    (step b s (.drain lo hi)).1.iter s = l.take lo ++ l.drop hi

/-- **C05** (partial): holds for the ranges that are symmetric in the buffer, in
particular for the full range; every valid range drains *as many* elements, in
oldest-first order, but counted from the newest end. -/
theorem C05_drain_partial (b : Storage S T) (s : S) (lo hi : Nat)
    (h1 : lo ≤ hi) (h2 : hi ≤ (b.iter s).length) (hq : b.queues s ≠ none) :
    (step b s (.drain lo hi)).2 =
      .items (((b.iter s).take ((b.iter s).length - lo)).drop ((b.iter s).length - hi)) ∧
    (step b s (.drain lo hi)).1.iter s =
      (b.iter s).take ((b.iter s).length - hi) ++ (b.iter s).drop ((b.iter s).length - lo) := by
  cases hqs : b.queues s with
  | none => exact absurd hqs hq
  | some q =>
    have hit : b.iter s = q.reverse := by simp [Storage.iter, hqs]
    rw [hit] at h2 ⊢
    simp only [List.length_reverse] at h2 ⊢
    have hd : b.drain s lo hi =
        some (b.set s (some (q.take lo ++ q.drop hi)), ((q.take hi).drop lo).reverse) := by
      simp [Storage.drain, hqs, h1, h2]
    simp only [step, hd]
    refine ⟨?_, ?_⟩
    · congr 1
      rw [List.reverse_drop, List.reverse_take]
      rw [List.length_take, Nat.min_eq_left h2, List.take_drop]
      congr 2
      omega
    · simp only [Storage.iter, Storage.set, if_true]
      rw [List.reverse_append, List.reverse_drop, List.reverse_take]

/-- The symmetric case of the documented contract, e.g. `drain(..)`. -/
theorem C05_drain_symmetric (b : Storage S T) (s : S) (lo hi : Nat)
    (h1 : lo ≤ hi) (hsym : lo + hi = (b.iter s).length) (hq : b.queues s ≠ none) :
    (step b s (.drain lo hi)).2 = .items (((b.iter s).take hi).drop lo) ∧
    (step b s (.drain lo hi)).1.iter s = (b.iter s).take lo ++ (b.iter s).drop hi := by
  have h := C05_drain_partial b s lo hi h1 (by omega) hq
  rw [show (b.iter s).length - lo = hi by omega, show (b.iter s).length - hi = lo by omega] at h
  exact h

example : (step (run (Storage.new .keepAll : Storage Nat Nat)
    [(0, .forcePush 1), (0, .forcePush 2), (0, .forcePush 3)]).1 0 (.drain 1 2)).2
      = .items [2] := by decide

/-- **C05** is false of the code: after pushing 1, 2, 3, `drain(0..1)` yields the
newest value 3 although `get(0)` is 1 (buffer_storage.rs:213-224). -/
theorem C05_drain_violated : ¬ C05_full := by
  intro h
  have := (h (run (Storage.new .keepAll)
    [(0, .forcePush 1), (0, .forcePush 2), (0, .forcePush 3)]).1 0 0 1 [1, 2, 3]
    (by decide) (by decide) (by decide) (by decide)).1
  revert this
  decide

/-- **C06**. Conservation: for every history without in-place writes, what was in
session `s` plus what was offered to it is a permutation of what was handed over,
what was discarded by clearing the session, and what is still readable. -/
theorem C06_conservation (b : Storage S T) (ops : List (S × Op T)) (s : S)
    (hw : ∀ c ∈ ops, c.1 = s → writesInPlace c.2 = false) :
    (b.iter s ++ offeredTo s ops).Perm
      (handedOverFrom s ops (run b ops).2 ++ clearedFrom s b ops ++ (run b ops).1.iter s) := by
  have hstep := conserve_step s (T := T)
  induction ops generalizing b with
  | nil => simp [offeredTo, callsOf, handedOverFrom, run, clearedFrom]
  | cons c ops ih =>
    obtain ⟨s', op⟩ := c
    have ih' := ih (step b s' op).1 (fun c hc => hw c (by simp [hc]))
    by_cases he : s' = s
    · subst he
      have h1 := hstep b op (hw (s', op) (by simp) rfl)
      have eo : offeredTo s' ((s', op) :: ops) = offered op ++ offeredTo s' ops := by
        simp [offeredTo, callsOf]
      have eh : handedOverFrom s' ((s', op) :: ops) (run b ((s', op) :: ops)).2 =
          handedOver op (step b s' op).2 ++ handedOverFrom s' ops (run (step b s' op).1 ops).2 := by
        simp [handedOverFrom, run]
      have ec : clearedFrom s' b ((s', op) :: ops) =
          clearedBy (b.iter s') op ++
            clearedFrom s' (step b s' op).1 ops := by
        simp [clearedFrom]
      have er : (run b ((s', op) :: ops)).1 = (run (step b s' op).1 ops).1 := rfl
      rw [eo, eh, ec, er, ← List.append_assoc]
      refine (h1.append_right _).trans ?_
      generalize handedOver op (step b s' op).2 = A at *
      generalize clearedBy (b.iter s') op = B at *
      refine (show ((A ++ B) ++ (step b s' op).1.iter s' ++ offeredTo s' ops).Perm
        ((A ++ B) ++ ((step b s' op).1.iter s' ++ offeredTo s' ops)) by
          rw [List.append_assoc]).trans ?_
      refine (ih'.append_left (A ++ B)).trans ?_
      generalize handedOverFrom s' ops (run (step b s' op).1 ops).2 = C
      generalize clearedFrom s' (step b s' op).1 ops = D
      generalize (run (step b s' op).1 ops).1.iter s' = E
      have : (A ++ B ++ (C ++ D ++ E)).Perm (A ++ (C ++ (B ++ (D ++ E)))) := by
        rw [List.append_assoc, List.append_assoc]
        refine List.Perm.append_left A ?_
        rw [← List.append_assoc, ← List.append_assoc C B]
        exact List.perm_append_comm.append_right _
      refine this.trans ?_
      simp [List.append_assoc]
    · have hfr := step_frame b s' s op (fun e => he e.symm)
      have hit : (step b s' op).1.iter s = b.iter s := by simp [Storage.iter, hfr]
      rw [hit] at ih'
      have eo : offeredTo s ((s', op) :: ops) = offeredTo s ops := by
        simp [offeredTo, callsOf, he]
      have eh : handedOverFrom s ((s', op) :: ops) (run b ((s', op) :: ops)).2 =
          handedOverFrom s ops (run (step b s' op).1 ops).2 := by
        simp [handedOverFrom, run, he]
      have ec : clearedFrom s b ((s', op) :: ops) = clearedFrom s (step b s' op).1 ops := by
        simp [clearedFrom, he]
      rw [eo, eh, ec]
      exact ih'

example : ∀ c ∈ ([(0, .forcePush 1), (1, .newestMut (· + 1)), (0, .pushAsOldest 2), (0, .clear)] :
    List (Nat × Op Nat)), c.1 = 0 → writesInPlace c.2 = false := by
  intro c hc
  simp only [List.mem_cons, List.not_mem_nil, or_false] at hc
  rcases hc with rfl | rfl | rfl | rfl <;> simp [writesInPlace]

end Verif.Buffer
