import Verif.Fork.Spec

namespace Verif.Fork

open Verif.Input

variable {V : Type}

/-- The messages `out` were delivered, without anything consumed or disposed. -/
structure Gave (w w' : World V) (session : Nat) (out : List (Nat × V)) : Prop where
  inbox : ∀ e, w.Listens e → w'.inbox e =
    w.inbox e ++ (out.filter fun p => p.1 = e).map fun p => ⟨session, p.2⟩
  listens : ∀ e, w'.Listens e ↔ w.Listens e
  unused : ∀ e, w'.Unused e ↔ w.Unused e
  active : w'.active = w.active
  disposals : w'.disposals = w.disposals
  queue : w'.queue = w.queue ++ out.map (·.1)
  despawn : w'.despawn = w.despawn

/-- What is delivered when the session may be inactive. -/
def sentIf (b : Bool) (out : List (Nat × V)) : List (Nat × V) := if b then out else []

theorem Gave.refl (w : World V) (s : Nat) : Gave w w s [] := by
  constructor <;> simp

theorem Gave.trans {w w' w'' : World V} {s o o'} (h : Gave w w' s o) (h' : Gave w' w'' s o') :
    Gave w w'' s (o ++ o') where
  inbox := by
    intro e he
    rw [h'.inbox e ((h.listens e).2 he), h.inbox e he]
    simp [List.append_assoc]
  listens := fun e => (h'.listens e).trans (h.listens e)
  unused := fun e => (h'.unused e).trans (h.unused e)
  active := h'.active.trans h.active
  disposals := h'.disposals.trans h.disposals
  queue := by rw [h'.queue, h.queue]; simp [List.append_assoc]
  despawn := h'.despawn.trans h.despawn

theorem Gave.accepts {w w' : World V} {s o} (h : Gave w w' s o) (e : Nat) :
    w'.Accepts e ↔ w.Accepts e := by
  simp [World.Accepts, h.listens, h.unused]

theorem accepts_some {w : World V} {t : Nat} (h : w.Accepts t) : ∃ n, w.nodes t = some n := by
  rcases h with ⟨n, _, hn, _⟩ | ⟨n, hn, _⟩ <;> exact ⟨n, hn⟩

@[simp] theorem setNode_nodes (w : World V) (t e : Nat) (n : Node Nat V) :
    (w.setNode t n).nodes e = if e = t then some n else w.nodes e := rfl

theorem setNode_same (w : World V) (t : Nat) (n : Node Nat V) (h : w.nodes t = some n) :
    w.setNode t n = w := by
  cases w
  simp only [World.setNode, World.mk.injEq, and_true]
  funext x
  by_cases hx : x = t
  · subst hx; simpa using h.symm
  · simp [hx]

theorem give_spec {w : World V} {t s : Nat} (v : V) (h : w.Accepts t) :
    ∃ w', w.give t s v = (w', none) ∧ Gave w w' s (sentIf (w.active s) [(t, v)]) := by
  obtain ⟨n, hn⟩ := accepts_some h
  by_cases ha : w.active s
  · rcases h with ⟨n', q, hn', hq⟩ | ⟨n', hn', hq, hu⟩
    · have : n' = n := by rw [hn] at hn'; exact (Option.some.inj hn').symm
      subst this
      refine ⟨{ w.setNode t { n' with storage := some (⟨s, v⟩ :: q) } with
        queue := w.queue ++ [t] }, ?_, ?_⟩
      · simp [World.give, hn, giveInput, sneakInput, ha, hq]
      · simp only [ha, sentIf, if_true]
        constructor
        · intro e he
          by_cases het : e = t
          · subst het
            simp [World.inbox, World.setNode, hn, hq]
          · have : ¬ t = e := fun x => het x.symm
            simp [World.inbox, World.setNode, het, this]
        · intro e
          by_cases het : e = t
          · subst het; simp [World.Listens, World.setNode, hn, hq]
          · simp [World.Listens, World.setNode, het]
        · intro e
          by_cases het : e = t
          · subst het; simp [World.Unused, World.setNode, hn, hq]
          · simp [World.Unused, World.setNode, het]
        · rfl
        · rfl
        · rfl
        · rfl
    · have : n' = n := by rw [hn] at hn'; exact (Option.some.inj hn').symm
      subst this
      refine ⟨{ w.setNode t n' with queue := w.queue ++ [t] }, ?_, ?_⟩
      · simp [World.give, hn, giveInput, sneakInput, ha, hq, hu]
      · simp only [ha, sentIf, if_true]
        rw [setNode_same w t n' hn]
        constructor
        · rintro e ⟨m, q, hm, hmq⟩
          have hne : ¬ t = e := by
            intro x; subst x
            rw [hn] at hm; cases hm; rw [hq] at hmq; cases hmq
          simp [World.inbox, hne]
        · intro e; exact Iff.rfl
        · intro e; exact Iff.rfl
        · rfl
        · rfl
        · rfl
        · rfl
  · refine ⟨w, ?_, ?_⟩
    · simp [World.give, hn, giveInput, sneakInput, ha, setNode_same w t n hn]
    · simp only [sentIf, ha]
      exact Gave.refl w s

theorem giveAll_spec (s : Nat) (out : List (Nat × V)) : ∀ (w : World V),
    (∀ p, p ∈ out → w.Accepts p.1) →
    ∃ w', w.giveAll s out = (w', none) ∧ Gave w w' s (sentIf (w.active s) out) := by
  induction out with
  | nil => intro w _; exact ⟨w, rfl, by cases h : w.active s <;> exact Gave.refl w s⟩
  | cons p out ih =>
    intro w h
    obtain ⟨w1, e1, g1⟩ := give_spec (s := s) p.2 (h p (by simp))
    obtain ⟨w2, e2, g2⟩ := ih w1 (fun q hq => (g1.accepts q.1).2 (h q (by simp [hq])))
    refine ⟨w2, ?_, ?_⟩
    · obtain ⟨t, v⟩ := p
      simp only [World.giveAll, e1, e2]
    · have := g1.trans g2
      rw [g1.active] at this
      cases ha : w.active s <;> simpa [sentIf, ha] using this

theorem distribute_spec (s : Nat) (out : List (Nat × V)) : ∀ (w : World V),
    (∀ p, p ∈ out → w.Accepts p.1) →
    ∃ w', w.distribute s out = (w', none) ∧ Gave w w' s (sentIf (w.active s) out) := by
  induction out with
  | nil => intro w _; exact ⟨w, rfl, by cases h : w.active s <;> exact Gave.refl w s⟩
  | cons p out ih =>
    intro w h
    obtain ⟨n, hn⟩ := accepts_some (h p (by simp))
    obtain ⟨w1, e1, g1⟩ := give_spec (s := s) p.2 (h p (by simp))
    obtain ⟨w2, e2, g2⟩ := ih w1 (fun q hq => (g1.accepts q.1).2 (h q (by simp [hq])))
    refine ⟨w2, ?_, ?_⟩
    · obtain ⟨t, v⟩ := p
      simp only at hn e1
      simp only [World.distribute, hn, e1, e2]
    · have := g1.trans g2
      rw [g1.active] at this
      cases ha : w.active s <;> simpa [sentIf, ha] using this

/-- Taking the oldest input. -/
theorem take_spec {w : World V} {source : Nat} {i : Inp Nat V} {rest : List (Inp Nat V)}
    (h : w.inbox source = i :: rest) :
    ∃ w', w.take source = (w', .ok i) ∧ Delivered w w' source i.session [] [] := by
  cases hn : w.nodes source with
  | none => simp [World.inbox, hn] at h
  | some n =>
    cases hq : n.storage with
    | none => simp [World.inbox, hn, hq] at h
    | some q =>
      have hr : q.reverse = i :: rest := by simpa [World.inbox, hn, hq] using h
      have hl : q.getLast? = some i := by
        rw [← List.head?_reverse, hr]; rfl
      refine ⟨w.setNode source { n with storage := some q.dropLast }, ?_, ?_⟩
      · simp [World.take, hn, takeInput, tryTakeInput, hq, hl]
      · constructor
        · intro e he
          by_cases hes : e = source
          · subst hes
            simp [World.inbox, World.setNode, hn, hq, List.tail_reverse]
          · simp [World.inbox, World.setNode, hes]
        · intro e
          by_cases hes : e = source
          · subst hes; simp [World.Listens, World.setNode, hn, hq]
          · simp [World.Listens, World.setNode, hes]
        · intro e
          by_cases hes : e = source
          · subst hes; simp [World.Unused, World.setNode, hn, hq]
          · simp [World.Unused, World.setNode, hes]
        · rfl
        · simp [World.setNode]
        · simp [World.setNode]
        · rfl

theorem Delivered.gave {w w' w'' : World V} {src s o d o'} (h : Delivered w w' src s o d)
    (h' : Gave w' w'' s o') : Delivered w w'' src s (o ++ o') d where
  inbox := by
    intro e he
    rw [h'.inbox e ((h.listens e).2 he), h.inbox e he]
    simp [List.append_assoc]
  listens := fun e => (h'.listens e).trans (h.listens e)
  unused := fun e => (h'.unused e).trans (h.unused e)
  active := h'.active.trans h.active
  disposals := h'.disposals.trans h.disposals
  queue := by rw [h'.queue, h.queue]; simp [List.append_assoc]
  despawn := h'.despawn.trans h.despawn

theorem Delivered.dispose {w w' : World V} {src s o d} (h : Delivered w w' src s o d)
    (c : Cause) : Delivered w (w'.dispose src s c) src s o (d ++ [c]) where
  inbox := h.inbox
  listens := h.listens
  unused := h.unused
  active := h.active
  disposals := by simp [World.dispose, h.disposals]
  queue := h.queue
  despawn := h.despawn

theorem Delivered.accepts {w w' : World V} {src s o d} (h : Delivered w w' src s o d) (e : Nat) :
    w'.Accepts e ↔ w.Accepts e := by
  simp [World.Accepts, h.listens, h.unused]

theorem listens_of_inbox {w : World V} {e : Nat} {i rest} (h : w.inbox e = i :: rest) :
    w.Listens e := by
  cases hn : w.nodes e with
  | none => simp [World.inbox, hn] at h
  | some n =>
    cases hq : n.storage with
    | none => simp [World.inbox, hn, hq] at h
    | some q => exact ⟨n, q, hn, hq⟩

theorem activateOne_some {w w' : World V} {src s t v o d} (h : Delivered w w' src s o d)
    (ht : w.Accepts t) :
    ∃ w'', w'.activateOne src s t (some v) = (w'', none) ∧
      Delivered w w'' src s (o ++ sentIf (w.active s) [(t, v)]) d := by
  have ht' := (h.accepts t).2 ht
  obtain ⟨n, hn⟩ := accepts_some ht'
  obtain ⟨w1, e1, g1⟩ := give_spec (s := s) v ht'
  rw [h.active] at g1
  exact ⟨w1, by simp only [World.activateOne, hn, e1], h.gave g1⟩

theorem activateOne_none {w w' : World V} {src s t o d} (h : Delivered w w' src s o d)
    (ht : w.Accepts t) (hs : w.Listens src) :
    ∃ w'', w'.activateOne src s t none = (w'', none) ∧
      Delivered w w'' src s o (d ++ [.branching t]) := by
  obtain ⟨n, hn⟩ := accepts_some ((h.accepts t).2 ht)
  obtain ⟨m, hm⟩ := accepts_some ((h.accepts src).2 (Or.inl hs))
  exact ⟨_, by simp only [World.activateOne, hn, hm], h.dispose _⟩

theorem forkClone_spec {w w' : World V} {src s o d} (h : Delivered w w' src s o d) (v : V)
    (ts : List Nat) (hne : ts ≠ []) (ht : ∀ t, t ∈ ts → w.Accepts t) :
    ∃ w'', w'.forkClone s v ts = (w'', none) ∧
      Delivered w w'' src s (o ++ sentIf (w.active s) (ts.map fun t => (t, v))) d := by
  have hlen : ¬ ts.length = 0 := by simpa using hne
  have hl : ts.getLast? = some (ts.getLast hne) := List.getLast?_eq_some_getLast hne
  have hsplit : ts = ts.take (ts.length - 1) ++ [ts.getLast hne] := by
    rw [← List.dropLast_eq_take]; exact (List.dropLast_concat_getLast hne).symm
  obtain ⟨w1, e1, g1⟩ := giveAll_spec s ((ts.take (ts.length - 1)).map fun t => (t, v)) w' (by
    intro p hp
    obtain ⟨t, hmem, rfl⟩ := List.mem_map.1 hp
    exact (h.accepts t).2 (ht t (List.mem_of_mem_take hmem)))
  rw [h.active] at g1
  have h1 := h.gave g1
  obtain ⟨w2, e2, g2⟩ := give_spec (s := s) v
    ((h1.accepts (ts.getLast hne)).2 (ht _ (List.getLast_mem hne)))
  rw [h1.active] at g2
  refine ⟨w2, by simp only [World.forkClone, hlen, if_false, e1, hl, e2], ?_⟩
  have h2 := h1.gave g2
  have : o ++ sentIf (w.active s) (ts.map fun t => (t, v)) =
      o ++ sentIf (w.active s) ((ts.take (ts.length - 1)).map fun t => (t, v)) ++
        sentIf (w.active s) [(ts.getLast hne, v)] := by
    cases w.active s with
    | false => simp [sentIf]
    | true =>
      have hm := congrArg (List.map fun t => (t, v)) hsplit
      rw [List.map_append] at hm
      simp only [sentIf, if_true, List.append_assoc]
      rw [hm]
      simp
  rw [this]
  exact h2

end Verif.Fork
