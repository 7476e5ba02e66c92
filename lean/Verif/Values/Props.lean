import Verif.Values.Reach

/-
Property theorems of C123. The notions they are stated in are in Spec.lean; what one event does is
in Model.lean.
-/
namespace Verif.Values

open Flow (Wired)

variable {α : Type}

/-- The full statement of C123: when the graph computes one response and sends nothing to an
operation that cancels, every execution of the workflow responds with it. -/
def C123_full : Prop :=
  ∀ (w : Work Nat) (x v : Nat), Wired w.net → Uncancelled w x → Comes w x w.terminal v →
    (∀ u, Comes w x w.terminal u → u = v) → ∀ es, (∀ e, e ∈ es → Kept e) →
    Over (run w (start w x) es) → (run w (start w x) es).outcome = some v

/-- A workflow responds only with what its graph computes for the terminal, whatever the order of
execution, whichever tasks are dropped and however its joins share their buffers. -/
theorem C123_sound (w : Work α) (hw : Wired w.net) (x : α) (es : List Ev) (v : α)
    (h : (run w (start w x) es).outcome = some v) : Comes w x w.terminal v := by
  obtain ⟨n, hn, hc⟩ := ((Sound.start hw x).run hw es).outcome v h
  have hm : (n, Flow.Kind.terminate) ∈ w.net.ops :=
    List.mem_map.2 ⟨(n, .terminate), Flow.mem_of_lookup hn, rfl⟩
  have : n = w.terminal := (hw.terminal n).1 hm
  rw [← this]
  exact hc

/-- Nor does an operation ever get a message that the graph does not compute for it. -/
theorem C123_messages (w : Work α) (hw : Wired w.net) (x : α) (es : List Ev) (n : Nat) (v : α)
    (h : v ∈ (run w (start w x) es).pending n ∨ v ∈ (run w (start w x) es).held n) :
    Comes w x n v := by
  have hs := (Sound.start hw x).run hw es
  rcases h with h | h
  · exact hs.pending n v h
  · exact hs.held n v h

/-- When the graph computes no more than one response, any two executions that respond respond
with the same. -/
theorem C123_determined (w : Work α) (hw : Wired w.net) (x : α)
    (hone : ∀ u u', Comes w x w.terminal u → Comes w x w.terminal u' → u = u') (es es' : List Ev)
    (v v' : α) (h : (run w (start w x) es).outcome = some v)
    (h' : (run w (start w x) es').outcome = some v') : v = v' :=
  hone v v' (C123_sound w hw x es v h) (C123_sound w hw x es' v' h')

/-- A session has ended with a response exactly when it has terminated. -/
theorem C123_outcome (w : Work α) (hw : Wired w.net) (x : α) (es : List Ev) :
    (run w (start w x) es).outcome.isSome ↔ (run w (start w x) es).status = .terminated :=
  ((Sound.start hw x).run hw es).ended

/-- The contents of messages decide among what `Verif.Flow` leaves open and add nothing to it:
every execution with values is one of its executions. -/
theorem C123_refines (w : Work α) (hw : Wired w.net) (x : α) (es : List Ev) :
    ∃ fes, fes.length = es.length ∧
      (run w (start w x) es).flat = Flow.run w.net (Flow.start w.net) fes := by
  rw [← flat_start w x]
  have : ∀ s, Sound w x s → ∃ fes, fes.length = es.length ∧
      (run w s es).flat = Flow.run w.net s.flat fes := by
    induction es with
    | nil => exact fun s _ => ⟨[], rfl, rfl⟩
    | cons e es ih =>
      intro s hs
      obtain ⟨fes, h1, h2⟩ := ih (step w s e) (hs.step hw e)
      refine ⟨flatEv w s e :: fes, by simp [h1], ?_⟩
      show (run w (step w s e) es).flat =
        Flow.run w.net (Flow.step w.net s.flat (flatEv w s e)) fes
      rw [h2, flat_step hw s hs.fits e]
  exact this _ (Sound.start hw x)

/-- A workflow whose graph computes a response is not cancelled, in no order of execution, as long
as no task is dropped, when its joins do not race for values, no loop leads into a join of
several buffers and nothing is sent to an operation that cancels. -/
theorem C123_not_cancelled_partial (w : Work α) (hw : Wired w.net)
    (hl : Flow.NoLoopIntoJoin w.net) (x : α) (ho : Orderly w x) (hu : Uncancelled w x) (v : α)
    (hc : Comes w x w.terminal v) (es : List Ev) (he : ∀ e, e ∈ es → Kept e) :
    (run w (start w x) es).status ≠ .cancelled :=
  ((Fair.start hw hl ho hc).run hw hl ho hu hc es he).uncancelled

/-- At any time every message that the graph computes can still be computed or has been. -/
theorem C123_complete_partial (w : Work α) (hw : Wired w.net) (hl : Flow.NoLoopIntoJoin w.net)
    (x : α) (ho : Orderly w x) (hu : Uncancelled w x) (v : α) (hc : Comes w x w.terminal v)
    (es : List Ev) (he : ∀ e, e ∈ es → Kept e) (ha : (run w (start w x) es).status = .active)
    (n : Nat) (u : α) (hn : Comes w x n u) :
    ∃ es', (n, u) ∈ (run w (start w x) (es ++ es')).log := by
  obtain ⟨s', ⟨es', _, rfl⟩, _, h⟩ := reach hw ho hn _
    (((Fair.start hw hl ho hc).run hw hl ho hu hc es he).good ha)
  refine ⟨es', ?_⟩
  unfold run at h ⊢
  rw [List.foldl_append]
  exact h

/-- At any time the session has responded or can still respond: it does not get stuck. -/
theorem C123_possible_partial (w : Work α) (hw : Wired w.net) (hl : Flow.NoLoopIntoJoin w.net)
    (x : α) (ho : Orderly w x) (hu : Uncancelled w x) (v : α) (hc : Comes w x w.terminal v)
    (es : List Ev) (he : ∀ e, e ∈ es → Kept e) :
    ∃ es' u, (∀ e, e ∈ es' → Kept e) ∧
      (run w (start w x) (es ++ es')).outcome = some u ∧ Comes w x w.terminal u := by
  have hf := (Fair.start hw hl ho hc).run hw hl ho hu hc es he
  have done : ∀ es', (run w (run w (start w x) es) es').status = .terminated →
      ∃ u, (run w (start w x) (es ++ es')).outcome = some u ∧ Comes w x w.terminal u := by
    intro es' h
    have heq : run w (run w (start w x) es) es' = run w (start w x) (es ++ es') := by
      unfold run
      rw [List.foldl_append]
    rw [heq] at h
    obtain ⟨u, hu⟩ := Option.isSome_iff_exists.1 ((C123_outcome w hw x _).2 h)
    exact ⟨u, hu, C123_sound w hw x _ u hu⟩
  cases hst : (run w (start w x) es).status with
  | active =>
    obtain ⟨s', ⟨es', hk, rfl⟩, h⟩ := terminates hw ho hc _ (hf.good hst)
    obtain ⟨u, hu⟩ := done es' h
    exact ⟨es', u, hk, hu⟩
  | terminated =>
    obtain ⟨u, hu⟩ := done [] hst
    exact ⟨[], u, by simp, hu⟩
  | cancelled => exact absurd hst hf.uncancelled

/-- When nothing is left to do, or the session has ended, there is a response, and the graph
computes it. -/
theorem C123_responds_partial (w : Work α) (hw : Wired w.net) (hl : Flow.NoLoopIntoJoin w.net)
    (x : α) (ho : Orderly w x) (hu : Uncancelled w x) (v : α) (hc : Comes w x w.terminal v)
    (es : List Ev) (he : ∀ e, e ∈ es → Kept e) (hover : Over (run w (start w x) es)) :
    ∃ u, (run w (start w x) es).outcome = some u ∧ Comes w x w.terminal u := by
  have hf := (Fair.start hw hl ho hc).run hw hl ho hu hc es he
  have ht : (run w (start w x) es).status = .terminated := by
    cases hst : (run w (start w x) es).status with
    | active =>
      rcases hover with h | h
      · exact absurd hst h
      · obtain ⟨s', ⟨es', _, h1⟩, h2⟩ := terminates hw ho hc _ (hf.good hst)
        rw [rest_final h es'] at h1
        rw [← h1, hst] at h2
        cases h2
    | terminated => rfl
    | cancelled => exact absurd hst hf.uncancelled
  obtain ⟨u, hu⟩ := Option.isSome_iff_exists.1 ((C123_outcome w hw x _).2 ht)
  exact ⟨u, hu, C123_sound w hw x es u hu⟩

/-- The full statement, for workflows whose joins do not race and into whose joins of several
buffers no loop leads. -/
theorem C123_partial (w : Work α) (hw : Wired w.net) (hl : Flow.NoLoopIntoJoin w.net) (x v : α)
    (ho : Orderly w x) (hu : Uncancelled w x) (hc : Comes w x w.terminal v)
    (hone : ∀ u, Comes w x w.terminal u → u = v) (es : List Ev) (he : ∀ e, e ∈ es → Kept e)
    (hover : Over (run w (start w x) es)) : (run w (start w x) es).outcome = some v := by
  obtain ⟨u, h1, h2⟩ := C123_responds_partial w hw hl x ho hu v hc es he hover
  rw [← hone u h2]
  exact h1

end Verif.Values
