import Verif.Promise.Flat

/-
Property theorems C30, C34, C56 and C57: what the owner of a promise sees.
-/
namespace Verif.Promise

variable {T E : Type}

/-! ### C30 -/

/-- **C30**: in every interleaving of calls of the two owners, every `peek` and `take`
answers as the specification says: pending until the sender acted, then the result of the
first act of the sender for ever, except that a value that was taken reads as taken. -/
theorem C30_refines (ops : List (Op T E)) (hno : ∀ o ∈ ops, o ≠ .sneakPeek) :
    (Cell.new.run ops).2 = (Abs.run {} ops).2 := by
  have key : ∀ (ops : List (Op T E)) (c : Cell T E) (a : Abs T E), Rel c a →
      (∀ o ∈ ops, o ≠ .sneakPeek) → (c.run ops).2 = (a.run ops).2 := by
    intro ops
    induction ops with
    | nil => intro c a _ _; rfl
    | cons o ops ih =>
      intro c a h hno
      obtain ⟨h1, h2⟩ := rel_step h o
      simp only [Cell.run, Abs.run]
      rw [ih _ _ h1 (fun x hx => hno x (by simp [hx]))]
      rcases h2 with h2 | ⟨h2, -⟩
      · rw [h2]
      · exact absurd h2 (hno o (by simp))
  exact key ops _ _ rel_new hno

/-- **C30**: `sneak_peek` answers the same or, out of date, pending. -/
theorem C30_sneak_peek (ops : List (Op T E)) :
    (Cell.new.run (ops ++ [.sneakPeek])).2.getLast? =
        (Abs.run {} (ops ++ [.sneakPeek])).2.getLast? ∨
      (Cell.new.run (ops ++ [.sneakPeek])).2.getLast? = some (.saw (.pending : State T E)) := by
  have hc : ∀ (ops : List (Op T E)) (c : Cell T E),
      (c.run (ops ++ [.sneakPeek])).2.getLast? = some ((c.run ops).1.step .sneakPeek).2 := by
    intro ops
    induction ops with
    | nil => intro c; rfl
    | cons o ops ih =>
      intro c
      have := ih (c.step o).1
      simp only [List.cons_append, Cell.run, List.getLast?_cons, this, Option.getD_some]
  have ha : ∀ (ops : List (Op T E)) (c : Abs T E),
      (c.run (ops ++ [.sneakPeek])).2.getLast? = some ((c.run ops).1.step .sneakPeek).2 := by
    intro ops
    induction ops with
    | nil => intro c; rfl
    | cons o ops ih =>
      intro c
      have := ih (c.step o).1
      simp only [List.cons_append, Abs.run, List.getLast?_cons, this, Option.getD_some]
  rw [hc, ha]
  rcases (rel_step (rel_run rel_new ops) .sneakPeek).2 with h | ⟨-, h⟩
  · exact .inl (by rw [h])
  · exact .inr (by rw [h])

/-- **C30**: once the promise has shown a state other than pending it never shows another
one, except that available becomes taken. Holds from any state whatsoever. -/
theorem C30_stable (c : Cell T E) (ops : List (Op T E)) (hres : c.state ≠ .pending) :
    ((c.run ops).1.state = c.state ∨ ∃ v, c.state = .available v ∧ (c.run ops).1.state = .taken) ∧
    ∀ s, (.saw s ∈ (c.run ops).2 ∨ .took s ∈ (c.run ops).2) →
      s = c.state ∨ ∃ v, c.state = .available v ∧ s = .taken := by
  have hstep : ∀ (c : Cell T E) (o : Op T E), c.state ≠ .pending →
      ((c.step o).1.state = c.state ∨ ∃ v, c.state = .available v ∧ (c.step o).1.state = .taken) ∧
      (∀ s, ((c.step o).2 = .saw s ∨ (c.step o).2 = .took s) → s = c.state) := by
    intro c o h
    obtain ⟨st, res, pr, se, od, fi⟩ := c
    have hu : ∀ st : State T E, st ≠ .pending → st.isPending = false := by
      intro st h; cases st <;> first | rfl | exact absurd rfl h
    simp only at h
    have hp := hu st h
    cases o with
    | finish r =>
      refine ⟨.inl ?_, by simp [Cell.step]⟩
      simp only [Cell.step, Cell.finish]
      split
      · cases pr <;> cases r <;> simp [Cell.set]
      · rfl
    | onPromiseDrop =>
      refine ⟨.inl ?_, by simp [Cell.step]⟩
      simp only [Cell.step, Cell.onPromiseDrop]
      split
      · split <;> rfl
      · rfl
    | update =>
      refine ⟨.inl ?_, by simp [Cell.step]⟩
      simp only [Cell.step, Cell.update, hp, Bool.false_eq_true, if_false]
      split <;> rfl
    | peek =>
      simp only [Cell.step, Cell.update, hp, Bool.false_eq_true, if_false]
      split
      · exact ⟨.inl rfl, fun s hs => by simpa [eq_comm] using hs⟩
      · exact ⟨.inl rfl, by simp⟩
    | sneakPeek =>
      simp only [Cell.step]
      split
      · exact ⟨.inl rfl, fun s hs => by simpa [eq_comm] using hs⟩
      · exact ⟨.inl rfl, by simp⟩
    | take =>
      simp only [Cell.step, Cell.take, Cell.update, hp, Bool.false_eq_true, if_false]
      split
      · refine ⟨?_, fun s hs => by simpa [eq_comm] using hs⟩
        cases st <;> simp [State.take]
      · exact ⟨.inl rfl, by simp⟩
    | dropPromise =>
      refine ⟨.inl ?_, by simp [Cell.step]⟩
      simp only [Cell.step, Cell.dropPromise]
      split
      · simp only; split <;> rfl
      · rfl
  induction ops generalizing c with
  | nil => exact ⟨.inl rfl, by simp [Cell.run]⟩
  | cons o ops ih =>
    obtain ⟨h1, h2⟩ := hstep c o hres
    have hnp : (c.step o).1.state ≠ .pending := by
      rcases h1 with h1 | ⟨v, -, h1⟩
      · rw [h1]; exact hres
      · rw [h1]; simp
    obtain ⟨h3, h4⟩ := ih (c.step o).1 hnp
    refine ⟨?_, ?_⟩
    · simp only [Cell.run]
      rcases h1 with h1 | ⟨v, h0, h1⟩
      · rw [h1] at h3; exact h3
      · rw [h1] at h3
        rcases h3 with h3 | ⟨v', h3, -⟩
        · exact .inr ⟨v, h0, h3⟩
        · cases h3
    · intro s hs
      simp only [Cell.run, List.mem_cons] at hs
      rcases hs with (hs | hs) | (hs | hs)
      · exact .inl (h2 s (.inl hs.symm))
      · rcases h4 s (.inl hs) with h4 | ⟨v', h4, h5⟩
        · rcases h1 with h1 | ⟨v, h0, h1⟩
          · exact .inl (by rw [h4, h1])
          · exact .inr ⟨v, h0, by rw [h4, h1]⟩
        · rcases h1 with h1 | ⟨v, h0, h1⟩
          · exact .inr ⟨v', by rw [← h1]; exact h4, h5⟩
          · rw [h1] at h4; cases h4
      · exact .inl (h2 s (.inr hs.symm))
      · rcases h4 s (.inr hs) with h4 | ⟨v', h4, h5⟩
        · rcases h1 with h1 | ⟨v, h0, h1⟩
          · exact .inl (by rw [h4, h1])
          · exact .inr ⟨v, h0, by rw [h4, h1]⟩
        · rcases h1 with h1 | ⟨v, h0, h1⟩
          · exact .inr ⟨v', by rw [← h1]; exact h4, h5⟩
          · rw [h1] at h4; cases h4

/-- **C30**: at most one response is ever handed out, and it is the one the sender gave
in its first act. -/
theorem C30_one_response (ops : List (Op T E)) :
    (Cell.new.run ops).2.filterMap Out.response = [] ∨
      ∃ v, (Cell.new.run ops).2.filterMap Out.response = [v] ∧
        (Abs.run {} ops).1.verdict = some (.available v) := by
  have hverd : ∀ (ops : List (Op T E)) (a : Abs T E) r, a.verdict = some r →
      (a.run ops).1.verdict = some r := by
    intro ops
    induction ops with
    | nil => intro a r h; exact h
    | cons o ops ih =>
      intro a r h
      apply ih
      cases o with
      | finish x => simp [Abs.step, h]
      | take => simp only [Abs.step]; split <;> exact h
      | _ => exact h
  have key : ∀ (ops : List (Op T E)) (c : Cell T E) (a : Abs T E), Rel c a →
      ((c.run ops).2.filterMap Out.response = [] ∨
        ∃ v, (c.run ops).2.filterMap Out.response = [v] ∧
          (a.run ops).1.verdict = some (.available v) ∧ a.taken = false) := by
    intro ops
    induction ops with
    | nil => intro c a _; exact .inl rfl
    | cons o ops ih =>
      intro c a h
      obtain ⟨h1, h2⟩ := rel_step h o
      have ih' := ih _ _ h1
      by_cases ho : o = .take
      · subst ho
        have h2 : (c.step .take).2 = (a.step .take).2 := by
          rcases h2 with h2 | ⟨h2, -⟩
          · exact h2
          · cases h2
        simp only [Cell.run, Abs.run, List.filterMap_cons, h2]
        cases hd : a.dropped with
        | true =>
          simp only [Abs.step, hd, if_true] at ih' ⊢
          exact ih'
        | false =>
          simp only [Abs.step, hd, Bool.false_eq_true, if_false] at ih' ⊢
          cases hv : a.verdict with
          | none =>
            simp only [hv, Option.isSome_none, Bool.or_false, view, Out.response] at ih' ⊢
            exact ih'
          | some r =>
            simp only [hv, Option.isSome_some, Bool.or_true] at ih' ⊢
            have hnil : (Cell.run (c.step .take).1 ops).2.filterMap Out.response = [] := by
              rcases ih' with h | ⟨v, -, -, h⟩
              · exact h
              · cases h
            rw [hnil]
            cases r with
            | available v =>
              cases ht : a.taken with
              | true => left; simp [view, Out.response]
              | false =>
                right
                refine ⟨v, by simp [view, Out.response], ?_, rfl⟩
                exact hverd ops _ _ rfl
            | cancelled x => left; simp [view, Out.response]
            | disposed => left; simp [view, Out.response]
      · have hr : Out.response (c.step o).2 = none := by
          cases o with
          | take => exact absurd rfl ho
          | peek => simp only [Cell.step]; split <;> rfl
          | sneakPeek => simp only [Cell.step]; split <;> rfl
          | _ => rfl
        have ht : (a.step o).1.taken = a.taken := by
          cases o <;> first | exact absurd rfl ho | rfl
        simp only [Cell.run, Abs.run, List.filterMap_cons, hr]
        rw [ht] at ih'
        exact ih'
  rcases key ops _ _ rel_new with h | ⟨v, h1, h2, -⟩
  · exact .inl h
  · exact .inr ⟨v, h1, h2⟩

/-- Pending, then the value, taken once; the late cancellation is ignored. -/
example : (Cell.new.run ([.peek, .finish (some (.available 5)), .sneakPeek, .peek, .take, .take,
      .finish (some (.cancelled 1)), .peek] : List (Op Nat Nat))).2 =
    [.saw .pending, .unit, .saw .pending, .saw (.available 5), .took (.available 5), .took .taken,
      .unit, .saw .taken] := by
  decide

/-! ### C56 -/

/-- **C56**: in every run in which the sender registered a function and the promise is
dropped before the sender acted, the function has been called exactly once after the drop,
and no later call of anybody changes that. -/
theorem C56_drop_fires_once (before after : List (Op T E)) (hreg : .onPromiseDrop ∈ before)
    (hsend : (Abs.run {} before).1.verdict = none) (hkept : .dropPromise ∉ before)
    (hlate : .onPromiseDrop ∉ after) :
    (Cell.new.run (before ++ .dropPromise :: after)).1.fired = 1 := by
  have happ : ∀ (o1 o2 : List (Op T E)) (c : Cell T E),
      (c.run (o1 ++ o2)).1 = ((c.run o1).1.run o2).1 := by
    intro o1
    induction o1 with
    | nil => intro o2 c; rfl
    | cons o o1 ih => intro o2 c; exact ih o2 _
  have hbefore : ∀ (ops : List (Op T E)) (c : Cell T E) (a : Abs T E), Rel c a →
      a.dropped = false → .dropPromise ∉ ops → (a.run ops).1.verdict = none →
      (c.run ops).1.promise = true ∧ (c.run ops).1.state = .pending ∧
        (c.run ops).1.fired = c.fired ∧
        ((c.run ops).1.onDrop = true ↔ c.onDrop = true ∨ .onPromiseDrop ∈ ops) := by
    intro ops
    induction ops with
    | nil =>
      intro c a h hd _ hv
      refine ⟨by rw [Cell.run, h.2.1, hd]; rfl, ?_, rfl, by simp [Cell.run]⟩
      rcases h.2.2 hd with ⟨k, -, -⟩ | ⟨r, k, -⟩
      · exact k
      · simp only [Abs.run] at hv; rw [hv] at k; cases k
    | cons o ops ih =>
      intro c a h hd hnd hv
      simp only [List.mem_cons, not_or] at hnd
      have hd' : (a.step o).1.dropped = false := by
        cases o with
        | dropPromise => exact absurd rfl hnd.1
        | take => simp only [Abs.step]; split <;> exact hd
        | _ => exact hd
      have hp : c.promise = true := by rw [h.2.1, hd]; rfl
      have hav : a.verdict = none := by
        cases hx : a.verdict with
        | none => rfl
        | some r =>
          have hmono : ∀ (ops : List (Op T E)) (a : Abs T E), a.verdict = some r →
              (a.run ops).1.verdict = some r := by
            intro ops
            induction ops with
            | nil => intro a h; exact h
            | cons o ops ih =>
              intro a h
              apply ih
              cases o with
              | finish x => simp [Abs.step, h]
              | take => simp only [Abs.step]; split <;> exact h
              | _ => exact h
          rw [hmono _ _ hx] at hv; cases hv
      have hs : c.sender = true := by rw [h.1, hav]; rfl
      obtain ⟨k1, k2, k3, k4⟩ := ih _ _ (rel_step h o).1 hd' hnd.2 hv
      refine ⟨k1, k2, ?_, ?_⟩
      · simp only [Cell.run]; rw [k3]
        cases o with
        | finish r =>
          exact (finish_hooks c r).2
        | onPromiseDrop => simp [Cell.step, hs, Cell.onPromiseDrop, hp]
        | update => simp [Cell.step, hp, (shows_update (h.2.2 hd)).2.2.2.2.2]
        | peek => simp [Cell.step, hp, (shows_update (h.2.2 hd)).2.2.2.2.2]
        | sneakPeek => simp [Cell.step, hp]
        | take => simp [Cell.step, hp, (shows_take (h.2.2 hd)).2.2.2.2.2]
        | dropPromise => exact absurd rfl hnd.1
      · simp only [Cell.run]; rw [k4]
        cases o with
        | finish r =>
          simp [Cell.step, (finish_hooks c r).1]
        | onPromiseDrop => simp [Cell.step, hs, Cell.onPromiseDrop, hp]
        | update => simp [Cell.step, hp, (shows_update (h.2.2 hd)).2.2.2.2.1]
        | peek => simp [Cell.step, hp, (shows_update (h.2.2 hd)).2.2.2.2.1]
        | sneakPeek => simp [Cell.step, hp]
        | take => simp [Cell.step, hp, (shows_take (h.2.2 hd)).2.2.2.2.1]
        | dropPromise => exact absurd rfl hnd.1
  have hafter : ∀ (ops : List (Op T E)) (c : Cell T E), c.promise = false →
      .onPromiseDrop ∉ ops → (c.run ops).1.fired = c.fired := by
    intro ops
    induction ops with
    | nil => intro c _ _; rfl
    | cons o ops ih =>
      intro c hp hno
      simp only [List.mem_cons, not_or] at hno
      have hstep : (c.step o).1.promise = false ∧ (c.step o).1.fired = c.fired := by
        cases o with
        | finish r =>
          simp only [Cell.step, Cell.finish, Cell.set, hp]
          split
          · cases r <;> simp [hp]
          · exact ⟨hp, rfl⟩
        | onPromiseDrop => exact absurd rfl hno.1
        | _ => simp [Cell.step, hp]
      simp only [Cell.run]
      rw [ih _ hstep.1 hno.2, hstep.2]
  obtain ⟨h1, h2, h3, h4⟩ := hbefore before _ _ rel_new rfl hkept hsend
  have h4' := h4.2 (.inr hreg)
  have h3' : (Cell.run (Cell.new : Cell T E) before).1.fired = 0 := h3
  rw [happ]
  simp only [Cell.run]
  generalize (Cell.run (Cell.new : Cell T E) before).1 = c at h1 h2 h3' h4'
  rw [hafter after _ (by simp [Cell.step, h1, Cell.dropPromise]) hlate]
  simp [Cell.step, h1, Cell.dropPromise, h2, State.isPending, h4', h3']

/-- **C56**: from any state in which the owner has seen the outcome, nothing but a later
registration by the sender ever calls the function. -/
theorem C56_seen_never_fires (c : Cell T E) (hseen : c.state ≠ .pending) (ops : List (Op T E))
    (hlate : .onPromiseDrop ∉ ops) : (c.run ops).1.fired = c.fired := by
  induction ops generalizing c with
  | nil => rfl
  | cons o ops ih =>
    simp only [List.mem_cons, not_or] at hlate
    have hst := (C30_stable c [o] hseen).1
    simp only [Cell.run] at hst ⊢
    rw [ih _ (by
      rcases hst with h | ⟨v, -, h⟩
      · rw [h]; exact hseen
      · rw [h]; simp) hlate.2]
    have hp : c.state.isPending = false := by
      cases hc : c.state <;> first | rfl | exact absurd hc hseen
    cases o with
    | finish r =>
      simp only [Cell.step, Cell.finish]
      split
      · by_cases hpr : c.promise = true <;> cases r <;> simp [Cell.set, hpr]
      · rfl
    | onPromiseDrop => exact absurd rfl hlate.1
    | update => simp only [Cell.step, Cell.update, hp]; split <;> rfl
    | peek => simp only [Cell.step, Cell.update, hp]; split <;> rfl
    | sneakPeek => simp only [Cell.step]; split <;> rfl
    | take => simp only [Cell.step, Cell.take, Cell.update, hp]; split <;> rfl
    | dropPromise =>
      simp only [Cell.step, Cell.dropPromise, hp, Bool.false_and, Bool.false_eq_true, if_false]
      split <;> rfl

example :
    let before : List (Op Nat Nat) := [.peek, .onPromiseDrop, .take]
    .onPromiseDrop ∈ before ∧ (Abs.run {} before).1.verdict = none ∧ .dropPromise ∉ before ∧
      (Cell.new.run (before ++ .dropPromise :: [.finish (some (.available 1))])).1.fired = 1 :=
  ⟨by decide, rfl, by decide, by decide⟩

example : (Cell.new.run ([.onPromiseDrop, .finish (some (.available 1)), .peek, .dropPromise] :
    List (Op Nat Nat))).1.fired = 0 := by decide

/-! ### C34 -/

/-- **C34**: in every order of the outer result, the inner result, the `flatten` call and
of looks at the promises, every look at the flat promise answers as the specification
says: the inner result if the outer promise succeeded, otherwise the failure of the outer
promise, pending while the result that matters is missing, taken once taken. The owner of
the inner promise does not take its value away before sending it. -/
theorem C34_flatten (ops : List (WOp T E)) (hno : .innerTake ∉ ops) :
    (World.new.run ops).2 = (AbsW.run {} ops).2 := by
  have dead : ∀ (ops : List (WOp T E)) (w : World T E) (a : AbsW T E),
      w.flattened = true → w.flat.promise = false → a.dropped = true → a.flattened = true →
      .innerTake ∉ ops → (w.run ops).2 = (a.run ops).2 := by
    intro ops
    induction ops with
    | nil => intro w a _ _ _ _ _; rfl
    | cons o ops ih =>
      intro w a h1 h2 h3 h4 hno
      simp only [List.mem_cons, not_or] at hno
      have hfin : ∀ (c : Cell T E) r, (c.finish r).promise = c.promise := finish_promise
      have hout : (w.step o).2 = .unit := by
        cases o <;> first | exact absurd rfl hno.1 | rfl | simp [World.step, h1, h2]
      have hw : (w.step o).1.flattened = true ∧ (w.step o).1.flat.promise = false := by
        cases o with
        | innerTake => exact absurd rfl hno.1
        | outerFinish r =>
          simp only [World.step, World.outerFinish]
          generalize (if (carries r && !decide (w.place = .user)) = true then none else r) = x
          split
          · split
            · split
              · generalize x.getD Result.disposed = y
                cases y with
                | available u =>
                  simp only [outerArrival]
                  split
                  · exact ⟨h1, by simp only [hfin]; exact h2⟩
                  · exact ⟨h1, h2⟩
                | cancelled c => exact ⟨h1, by simp only [outerArrival, hfin]; exact h2⟩
                | disposed => exact ⟨h1, by simp only [outerArrival, hfin]; exact h2⟩
              · exact ⟨h1, h2⟩
            · split <;> exact ⟨h1, h2⟩
          · exact ⟨h1, h2⟩
        | innerFinish r =>
          simp only [World.step, World.innerFinish]
          split
          · split
            · exact ⟨h1, by simp only [hfin]; exact h2⟩
            · exact ⟨h1, h2⟩
          · exact ⟨h1, h2⟩
        | outerOnDrop => simp only [World.step]; split <;> exact ⟨h1, h2⟩
        | innerOnDrop => simp only [World.step]; split <;> exact ⟨h1, h2⟩
        | outerPeek => simp only [World.step]; split <;> exact ⟨h1, h2⟩
        | innerPeek => simp only [World.step]; split <;> exact ⟨h1, h2⟩
        | flatten =>
          simp only [World.step, World.flatten, h1, Bool.true_or, if_true]
          exact ⟨trivial, h2⟩
        | flatPeek => simp [World.step, h1, h2]
        | flatTake => simp [World.step, h1, h2]
        | flatDrop => simp [World.step, World.dropFlat, h1, h2]
      have ha : (a.step o).1.dropped = true ∧ (a.step o).1.flattened = true ∧
          (a.step o).2 = .unit := by
        cases o <;> simp [AbsW.step, h3, h4]
      simp only [World.run, AbsW.run]
      rw [hout, ha.2.2, ih _ _ hw.1 hw.2 ha.1 ha.2.1 hno.2]
  have key : ∀ (ops : List (WOp T E)) (w : World T E) (a : AbsW T E), RelW w a →
      .innerTake ∉ ops → (w.run ops).2 = (a.run ops).2 := by
    intro ops
    induction ops with
    | nil => intro w a _ _; rfl
    | cons o ops ih =>
      intro w a h hno
      simp only [List.mem_cons, not_or] at hno
      have hnt : notTake o = true := by
        cases o <;> first | rfl | exact absurd rfl hno.1
      obtain ⟨h1, h2⟩ := relW_step h o hnt
      simp only [World.run, AbsW.run]
      rw [h2]
      congr 1
      cases hd : (a.step o).1.dropped with
      | false => exact ih _ _ (h1 hd) hno.2
      | true =>
        have ho : o = .flatDrop ∧ a.flattened = true := by
          cases o with
          | flatDrop =>
            simp only [AbsW.step, h.live, Bool.false_or] at hd
            exact ⟨rfl, hd⟩
          | flatTake =>
            simp only [AbsW.step] at hd
            split at hd <;> (simp only [h.live] at hd; cases hd)
          | _ => simp only [AbsW.step, h.live] at hd; cases hd
        obtain ⟨rfl, hf⟩ := ho
        have hwf : w.flattened = true := by
          rcases h.phase with p | p | p | p
          · have := p.fl; rw [hf] at this; cases this
          all_goals exact p.wfl
        refine dead ops _ _ ?_ ?_ hd (by simp [AbsW.step, hf]) hno.2
        · simp only [World.step, World.dropFlat, hwf, h.fp, Bool.and_self, if_true]
          split <;> split <;> rfl
        · simp only [World.step, World.dropFlat, hwf, h.fp, Bool.and_self, if_true]
          split <;> split <;> exact (drop_fields _).2.1
  exact key ops _ _ relW_new hno

/-- Outer, flatten, inner; then the value is there once. -/
example : (World.new.run ([.outerFinish (some (.available ())), .outerPeek, .flatten, .flatPeek,
      .innerFinish (some (.available 5)), .flatPeek, .flatTake, .flatTake] : List (WOp Nat Nat))).2 =
    [.unit, .unit, .unit, .saw .pending, .unit, .saw (.available 5), .took (.available 5),
      .took .taken] := by
  decide

/-- Flatten first, the outer promise is dropped by its sender. -/
example : (World.new.run ([.innerFinish (some (.available 5)), .flatten, .flatPeek,
      .outerFinish none, .flatPeek] : List (WOp Nat Nat))).2 =
    [.unit, .unit, .saw .pending, .unit, .saw .disposed] := by
  decide

/-- If the owner of the inner promise took its value before sending it, what the flat
promise shows depends on the order: disposed if `flatten` came before the outer result,
taken if it came after. -/
theorem C34_taken_order_dependent :
    (World.new.run ([.innerFinish (some (.available 5)), .innerTake, .flatten,
      .outerFinish (some (.available ())), .flatPeek] : List (WOp Nat Nat))).2.getLast? =
        some (.saw .disposed) ∧
    (World.new.run ([.innerFinish (some (.available 5)), .innerTake,
      .outerFinish (some (.available ())), .flatten, .flatPeek] : List (WOp Nat Nat))).2.getLast? =
        some (.saw .taken) := by
  decide

/-! ### C57 -/

/-- **C57**: dropping the flat promise while it is pending calls, exactly once, the
function registered by the sender whose result is missing: the outer sender if the outer
result is missing, the inner sender if the outer promise succeeded. -/
theorem C57_flat_drop_reaches_source (ops : List (WOp T E)) (hno : .innerTake ∉ ops)
    (hnd : .flatDrop ∉ ops) (hfl : (AbsW.run {} ops).1.flattened = true) :
    ((AbsW.run {} ops).1.outer = none → .outerOnDrop ∈ ops →
      (World.new.run (ops ++ [.flatDrop])).1.outer.fired = 1) ∧
    ((AbsW.run {} ops).1.outer = some (.available ()) → (AbsW.run {} ops).1.inner = none →
      .innerOnDrop ∈ ops → (World.new.run (ops ++ [.flatDrop])).1.inner.fired = 1) := by
  have happ : ∀ (o1 o2 : List (WOp T E)) (w : World T E),
      (w.run (o1 ++ o2)).1 = ((w.run o1).1.run o2).1 := by
    intro o1
    induction o1 with
    | nil => intro o2 w; rfl
    | cons o o1 ih => intro o2 w; exact ih o2 _
  have key : ∀ (ops : List (WOp T E)) (w : World T E) (a : AbsW T E) (ro ri : Bool), RelW w a →
      Hooks w a ro ri → .innerTake ∉ ops → .flatDrop ∉ ops →
      RelW (w.run ops).1 (a.run ops).1 ∧
        Hooks (w.run ops).1 (a.run ops).1 (ro || ops.any isOuterOnDrop) (ri || ops.any isInnerOnDrop) := by
    intro ops
    induction ops with
    | nil => intro w a ro ri h hk _ _; simpa [World.run, AbsW.run] using ⟨h, hk⟩
    | cons o ops ih =>
      intro w a ro ri h hk hno hnd
      simp only [List.mem_cons, not_or] at hno hnd
      have hnt : notTake o = true := by
        cases o <;> first | rfl | exact absurd rfl hno.1
      have hd : (a.step o).1.dropped = false := by
        cases o with
        | flatDrop => exact absurd rfl hnd.1
        | flatTake => simp only [AbsW.step]; split <;> exact h.live
        | _ => exact h.live
      have := ih _ _ _ _ ((relW_step h o hnt).1 hd)
        (hooks_step h hk o hnt (fun he => hnd.1 he.symm)) hno.2 hnd.2
      simpa [World.run, AbsW.run, List.any_cons, Bool.or_assoc] using this
  obtain ⟨h, hk⟩ := key ops _ _ false false relW_new
    ⟨fun _ => ⟨rfl, rfl⟩, fun _ _ => ⟨rfl, rfl⟩⟩ hno hnd
  rw [happ]
  generalize World.run World.new ops = rw' at h hk ⊢
  generalize (AbsW.run {} ops).1 = a at h hk hfl ⊢
  obtain ⟨w, outs⟩ := rw'
  simp only [World.run] at h hk ⊢
  refine ⟨fun ho hreg => ?_, fun ho hi hreg => ?_⟩
  · have hp : WaitOuter w a := by
      rcases h.phase with p | p | p | p
      · have := p.fl; rw [hfl] at this; cases this
      · exact p
      · have := p.o; rw [ho] at this; cases this
      · exact absurd ho p.o
    have hon := hk.1 ho
    have hany : ops.any isOuterOnDrop = true := List.any_eq_true.2 ⟨_, hreg, rfl⟩
    simp only [hany, Bool.or_true] at hon
    simp only [World.step, World.dropFlat, hp.wfl, h.fp, Bool.and_self, if_true, hp.op, hp.place,
      reduceCtorEq, if_false, Cell.dropPromise, hp.ost, State.isPending, hon.1, hon.2]
  · have hp : WaitInner w a := by
      rcases h.phase with p | p | p | p
      · have := p.fl; rw [hfl] at this; cases this
      · have := p.o; rw [ho] at this; cases this
      · exact p
      · obtain ⟨r, hr, -⟩ := p.res
        rw [ho, hi] at hr; simp [outcome] at hr
    have hon := hk.2 hi (by rw [ho, hi]; rfl)
    have hany : ops.any isInnerOnDrop = true := List.any_eq_true.2 ⟨_, hreg, rfl⟩
    simp only [hany, Bool.or_true] at hon
    simp only [World.step, World.dropFlat, hp.wfl, h.fp, Bool.and_self, if_true]
    split <;> simp [hp.place, Cell.dropPromise, hp.ist, State.isPending, hon.1, hon.2]

example :
    let ops : List (WOp Nat Nat) := [.innerOnDrop, .flatten, .outerFinish (some (.available ())),
      .flatPeek]
    (AbsW.run {} ops).1.flattened = true ∧ (AbsW.run {} ops).1.inner = none ∧
      (World.new.run (ops ++ [.flatDrop])).1.inner.fired = 1 :=
  ⟨rfl, rfl, by decide⟩

end Verif.Promise
