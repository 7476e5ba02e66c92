import Verif.Series.Broken

/-
A series whose stream is collected: what is emitted piles up at the entity that collects.
-/
namespace Verif.Series

/-- A series with one step whose stream `ty` is collected into entity `e`, at work. -/
def collecting (r ty e : Nat) : List Op :=
  [.request r, .collect 1 0 e [ty], .takeResponse 1 0, .exec]

/-- While items are emitted they wait at entity 2. -/
structure Piled (ty e : Nat) (vs : List Nat) (w : World) : Prop where
  source : ∃ n, w.nodes 1 = some n ∧ n.kind = .busy 1 ∧ n.streams = [(ty, 2)]
  pile : ∃ n, w.nodes 2 = some n ∧ n.kind = .push e true ∧ n.inputs = vs.map fun v => (1, v)
  queue : w.queue = List.replicate vs.length 2
  collected : w.collected = []

theorem piled_start (r ty e : Nat) : Piled ty e [] (run (collecting r ty e)) := by
  refine ⟨⟨?_, ?_, ?_, ?_⟩, ⟨?_, ?_, ?_, ?_⟩, ?_, ?_⟩
  rotate_left 4
  rotate_left 4
  · rfl
  · rfl
  · exact { parent := some 0, target := some 0, kind := .busy 1, streams := [(ty, 2)],
            cancellable := true }
  · rfl
  · rfl
  · rfl
  · exact { parent := some 1, kind := .push e true, cancellable := true }
  · rfl
  · rfl
  · rfl

theorem Piled.emit {ty e v : Nat} {vs : List Nat} {w : World} (h : Piled ty e vs w) :
    Piled ty e (vs ++ [v]) (w.step (.emit 1 ty v)) := by
  obtain ⟨⟨n, hn, hk, hs⟩, ⟨m, hm, hmk, hmi⟩, hq, hc⟩ := h
  have he : w.step (.emit 1 ty v) =
      { w.set 2 { m with inputs := m.inputs ++ [(1, v)] } with queue := w.queue ++ [2] } := by
    simp [World.step, World.emit, World.give, hn, hk, hs, hm, hmk, World.set]
  rw [he]
  refine ⟨⟨n, ?_, hk, hs⟩, ⟨{ m with inputs := m.inputs ++ [(1, v)] }, ?_, hmk, ?_⟩, ?_, hc⟩
  · show (w.set 2 { m with inputs := m.inputs ++ [(1, v)] }).nodes 1 = _
    rw [set_other _ _ (by decide)]; exact hn
  · exact set_self w 2 { m with inputs := m.inputs ++ [(1, v)] }
  · simp [hmi]
  · show w.queue ++ [2] = _
    rw [hq, List.length_append, List.length_singleton, List.replicate_succ']

theorem piled_emits {ty e : Nat} (us : List Nat) : ∀ {vs : List Nat} {w : World},
    Piled ty e vs w → Piled ty e (vs ++ us) ((us.map fun v => Op.emit 1 ty v).foldl World.step w) := by
  induction us with
  | nil => intro vs w h; simpa using h
  | cons u us ih =>
    intro vs w h
    have := ih (h.emit (v := u))
    simpa using this

theorem dead_execs (k : Nat) : ∀ {j : Nat} {w : World}, w.nodes 2 = none →
    w.queue = List.replicate j 2 →
    ((List.replicate k Op.exec).foldl World.step w).collected = w.collected := by
  induction k with
  | zero => intro j w _ _; rfl
  | succ k ih =>
    intro j w hd hq
    rw [List.replicate_succ, List.foldl_cons]
    cases j with
    | zero =>
      have he : w.step .exec = w := by simp [World.step, World.exec, hq]
      rw [he]
      exact ih (j := 0) hd hq
    | succ j =>
      have he : w.step .exec = { w with queue := List.replicate j 2 } := by
        simp [World.step, World.exec, hq, List.replicate_succ, hd]
      rw [he]
      exact ih (j := j) hd rfl

end Verif.Series
