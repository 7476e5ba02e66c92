import Verif.Promise.Spec

set_option linter.unusedSimpArgs false
namespace Verif.Promise

variable {T E : Type}

/-- The cell shows the given verdict. -/
def Shows (c : Cell T E) (o : Option (Result T E)) (taken : Bool) : Prop :=
  (c.state = .pending ∧ c.result = o ∧ taken = false) ∨
    (∃ r, o = some r ∧ c.state = view (some r) taken)

theorem view_not_pending (r : Result T E) (t : Bool) : (view (some r) t).isPending = false := by
  cases r <;> simp [view, State.isPending]
  cases t <;> rfl

theorem shows_update {c : Cell T E} {o t} (h : Shows c o t) :
    Shows c.update o t ∧ c.update.state = view o t ∧ c.update.promise = c.promise ∧
      c.update.sender = c.sender ∧ c.update.onDrop = c.onDrop ∧ c.update.fired = c.fired := by
  obtain ⟨st, res, pr, se, od, fi⟩ := c
  rcases h with ⟨h1, h2, h3⟩ | ⟨r, h1, h2⟩
  · simp only at h1 h2; subst h1 h2 h3
    cases res with
    | none => simp [Cell.update, State.isPending, State.update, Shows, view]
    | some r => cases r <;> simp [Cell.update, State.isPending, State.update, Shows, view]
  · simp only at h2; subst h1 h2
    simp only [Cell.update, view_not_pending, Bool.false_eq_true, if_false]
    exact ⟨.inr ⟨r, rfl, rfl⟩, trivial, trivial, trivial, trivial, trivial⟩

theorem view_take (o : Option (Result T E)) (t : Bool) :
    (view o t).take = view o (t || o.isSome) := by
  cases o with
  | none => rfl
  | some r => cases r <;> cases t <;> rfl

theorem shows_take {c : Cell T E} {o t} (h : Shows c o t) :
    Shows c.take.1 o (t || o.isSome) ∧ c.take.2 = view o t ∧ c.take.1.promise = c.promise ∧
      c.take.1.sender = c.sender ∧ c.take.1.onDrop = c.onDrop ∧ c.take.1.fired = c.fired := by
  obtain ⟨h1, h2, h3⟩ := shows_update h
  refine ⟨?_, h2, h3⟩
  cases o with
  | none =>
    rcases h1 with ⟨k1, k2, k3⟩ | ⟨r, hr, _⟩
    · subst k3; exact .inl ⟨by simp [Cell.take, k1, State.take], k2, rfl⟩
    · cases hr
  | some r => exact .inr ⟨r, rfl, by simp [Cell.take, h2, view_take]⟩

/-- A verdict given to a promise that waits. -/
theorem shows_finish {c : Cell T E} (h : Shows c none t) (hp : c.promise = true)
    (hs : c.sender = true) (r : Option (Result T E)) :
    Shows (c.finish r) (some (r.getD .disposed)) t ∧ (c.finish r).promise = true ∧
      (c.finish r).sender = false ∧ (c.finish r).onDrop = c.onDrop ∧
      (c.finish r).fired = c.fired ∧ (c.finish r).state = c.state := by
  obtain ⟨st, res, pr, se, od, fi⟩ := c
  simp only at hp hs; subst hp hs
  rcases h with ⟨h1, h2, h3⟩ | ⟨r, hr, _⟩
  · simp only at h1 h2; subst h1 h2 h3
    cases r <;> simp [Cell.finish, Cell.set, Shows]
  · cases hr

/-- Once there is a verdict, a later one changes nothing that is seen. -/
theorem finish_gone {c : Cell T E} (hs : c.sender = false) (r : Option (Result T E)) :
    c.finish r = c := by
  simp [Cell.finish, hs]

/-- A promise that already shows its state: a further result does not matter. -/
theorem shows_seen_finish {c : Cell T E} {v : Result T E} {t}
    (h : c.state = view (some v) t) (r) : Shows (c.finish r) (some v) t := by
  right
  refine ⟨v, rfl, ?_⟩
  rw [← h]
  unfold Cell.finish
  split
  · by_cases hp : c.promise = true <;> cases r <;> simp [Cell.set, hp]
  · rfl

/-- The relation between a cell and what its users should see. -/
def Rel (c : Cell T E) (a : Abs T E) : Prop :=
  c.sender = a.verdict.isNone ∧ c.promise = !a.dropped ∧
    (a.dropped = false → Shows c a.verdict a.taken)

theorem finish_promise (c : Cell T E) (r) : (c.finish r).promise = c.promise := by
  unfold Cell.finish
  split
  · cases r <;> simp only [Cell.set] <;> split <;> first | rfl | (split <;> rfl) | simp_all
  · rfl

theorem finish_sender (c : Cell T E) (r) : (c.finish r).sender = false := by
  unfold Cell.finish
  split
  · rfl
  · simp_all

theorem rel_new : Rel (Cell.new : Cell T E) {} :=
  ⟨rfl, rfl, fun _ => .inl ⟨rfl, rfl, rfl⟩⟩

/-- One call: the relation is kept, and the answer is the expected one; `sneak_peek` may
also still answer pending. -/
theorem rel_step {c : Cell T E} {a : Abs T E} (h : Rel c a) (o : Op T E) :
    Rel (c.step o).1 (a.step o).1 ∧
      ((c.step o).2 = (a.step o).2 ∨ (o = .sneakPeek ∧ (c.step o).2 = .saw .pending)) := by
  obtain ⟨h1, h2, h3⟩ := h
  cases o with
  | finish r =>
    refine ⟨⟨?_, ?_, fun hd => ?_⟩, .inl rfl⟩
    · simp only [Cell.step, Abs.step, finish_sender]
      cases a.verdict <;> rfl
    · simp only [Cell.step, Abs.step, finish_promise, h2]
    · simp only [Cell.step, Abs.step] at hd ⊢
      have hs := h3 hd
      cases hv : a.verdict with
      | none =>
        rw [hv] at hs h1
        exact (shows_finish hs (by rw [h2, hd]; rfl) (by rw [h1]; rfl) r).1
      | some v =>
        rw [hv] at hs h1
        rw [finish_gone (by rw [h1]; rfl)]
        exact hs
  | onPromiseDrop =>
    refine ⟨?_, .inl rfl⟩
    simp only [Cell.step, Abs.step, Cell.onPromiseDrop]
    split
    · split
      · exact ⟨h1, h2, h3⟩
      · exact ⟨h1, h2, h3⟩
    · exact ⟨h1, h2, h3⟩
  | update =>
    refine ⟨?_, .inl rfl⟩
    simp only [Cell.step, Abs.step]
    split
    · rename_i hp
      rw [h2] at hp
      have hd : a.dropped = false := by simpa using hp
      obtain ⟨k1, k2, k3, k4, -⟩ := shows_update (h3 hd)
      exact ⟨by rw [k4, h1], by rw [k3, h2], fun _ => k1⟩
    · exact ⟨h1, h2, h3⟩
  | peek =>
    simp only [Cell.step, Abs.step]
    cases hd : a.dropped with
    | true => simp only [h2, hd, Bool.not_true, Bool.false_eq_true, if_false, if_true]
              exact ⟨⟨h1, by rw [h2, hd], by simp [hd]⟩, .inl trivial⟩
    | false =>
      obtain ⟨k1, k2, k3, k4, -⟩ := shows_update (h3 hd)
      simp only [h2, hd, Bool.not_false, if_true, Bool.false_eq_true, if_false, k2]
      exact ⟨⟨by rw [k4, h1], by rw [k3, h2], fun _ => k1⟩, .inl trivial⟩
  | sneakPeek =>
    simp only [Cell.step, Abs.step]
    cases hd : a.dropped with
    | true => simp only [h2, hd, Bool.not_true, Bool.false_eq_true, if_false, if_true]
              exact ⟨⟨h1, by rw [h2, hd], by simp [hd]⟩, .inl trivial⟩
    | false =>
      simp only [h2, hd, Bool.not_false, if_true, Bool.false_eq_true, if_false]
      refine ⟨⟨h1, by rw [h2], h3⟩, ?_⟩
      rcases h3 hd with ⟨k1, -, -⟩ | ⟨r, k1, k2⟩
      · exact .inr ⟨trivial, by rw [k1]⟩
      · exact .inl (by rw [k2, k1])
  | take =>
    simp only [Cell.step, Abs.step]
    cases hd : a.dropped with
    | true => simp only [h2, hd, Bool.not_true, Bool.false_eq_true, if_false, if_true]
              exact ⟨⟨h1, by rw [h2, hd], by simp [hd]⟩, .inl trivial⟩
    | false =>
      obtain ⟨k1, k2, k3, k4, -⟩ := shows_take (h3 hd)
      simp only [h2, hd, Bool.not_false, if_true, Bool.false_eq_true, if_false, k2]
      exact ⟨⟨by rw [k4, h1], by rw [k3, h2, hd], fun _ => k1⟩, .inl trivial⟩
  | dropPromise =>
    refine ⟨?_, .inl rfl⟩
    simp only [Cell.step, Abs.step]
    cases hd : a.dropped with
    | true => simp only [h2, hd, Bool.not_true, Bool.false_eq_true, if_false]
              exact ⟨h1, by rw [h2, hd], by simp⟩
    | false =>
      simp only [h2, hd, Bool.not_false, if_true, Cell.dropPromise]
      refine ⟨?_, rfl, by simp⟩
      simp only
      split <;> exact h1

theorem rel_run {c : Cell T E} {a : Abs T E} (h : Rel c a) (ops : List (Op T E)) :
    Rel (c.run ops).1 (a.run ops).1 := by
  induction ops generalizing c a with
  | nil => exact h
  | cons o ops ih => exact ih (rel_step h o).1

end Verif.Promise
