import Verif.Series.Net

/-
Invariants that involve the roster, and closed forms of the operations.
-/
namespace Verif.Series

structure Line (w : World) : Prop where
  qlt : ∀ q, q ∈ w.queue → q < w.next
  quiet : ∀ x n t, w.nodes x = some n → n.target = some t → n.kind ≠ .done → t ∉ w.queue
  fifo : ∀ x n t e m, w.nodes x = some n → n.target = some t → e ∈ n.streams →
    w.nodes e.2 = some m →
    m.inputs.length ≤ (w.queue.takeWhile fun q => q ≠ t).count e.2

theorem target_nonleaf {w : World} (h : Net w) {x t : Nat} {n : Node} (hx : w.nodes x = some n)
    (ht : n.target = some t) : ∃ m, w.nodes t = some m ∧ m.kind.leaf = false :=
  h.forest.alive _ _ _ hx ((h.forest.ok _ _ hx).targ ht)

/-- The front of the roster is taken off. -/
theorem Line.pop {w w' : World} (h : Line w) (hN : Net w) {x : Nat} {rest : List Nat}
    (hq : w.queue = x :: rest) (hq' : w'.queue = rest) (hnx : w'.next = w.next)
    (hn : ∀ y m', w'.nodes y = some m' → ∃ m, w.nodes y = some m ∧ m'.target = m.target ∧
      m'.streams = m.streams ∧ (m'.kind ≠ .done → m.kind ≠ .done) ∧
      m'.inputs.length ≤ m.inputs.length ∧
      (y = x → m.kind.leaf = true → m'.inputs.length ≤ m.inputs.length - 1)) : Line w' := by
  refine ⟨?_, ?_, ?_⟩
  · intro q hm
    rw [hnx]
    rw [hq'] at hm
    exact h.qlt q (by rw [hq]; exact List.mem_cons_of_mem _ hm)
  · intro y n t hy ht hk hm
    obtain ⟨m, h1, h2, -, h4, -⟩ := hn _ _ hy
    rw [hq'] at hm
    exact h.quiet y m t h1 (h2 ▸ ht) (h4 hk) (by rw [hq]; exact List.mem_cons_of_mem _ hm)
  · intro y n t e c hy ht he hc
    obtain ⟨m, h1, h2, h3, -, -⟩ := hn _ _ hy
    obtain ⟨d, k1, -, -, -, k5, k6⟩ := hn _ _ hc
    have hd := hN.mapLeaf _ _ _ _ h1 (h3 ▸ he) k1
    have hf := h.fifo y m t e d h1 (h2 ▸ ht) (h3 ▸ he) k1
    rw [hq] at hf
    rw [hq']
    by_cases hxt : x = t
    · rw [List.takeWhile_cons, if_neg (by simp [hxt])] at hf
      simp at hf
      rw [hf] at k5
      simp at k5
      simp [k5]
    · rw [List.takeWhile_cons, if_pos (by simp [hxt]), List.count_cons] at hf
      by_cases hxc : x = e.2
      · have := k6 hxc.symm hd.1
        simp [hxc] at hf
        simp
        omega
      · simp [hxc] at hf
        simp
        omega

/-- Nodes change or go, but the roster stays. -/
theorem Line.less {w w' : World} (h : Line w) (hq : w'.queue = w.queue)
    (hnx : w'.next = w.next)
    (hn : ∀ y m', w'.nodes y = some m' → ∃ m, w.nodes y = some m ∧ m'.target = m.target ∧
      m'.streams = m.streams ∧ (m'.kind ≠ .done → m.kind ≠ .done) ∧
      m'.inputs.length ≤ m.inputs.length) : Line w' := by
  refine ⟨by rw [hq, hnx]; exact h.qlt, ?_, ?_⟩
  · intro y n t hy ht hk
    obtain ⟨m, h1, h2, -, h4, -⟩ := hn _ _ hy
    rw [hq]
    exact h.quiet y m t h1 (h2 ▸ ht) (h4 hk)
  · intro y n t e c hy ht he hc
    obtain ⟨m, h1, h2, h3, -, -⟩ := hn _ _ hy
    obtain ⟨d, k1, -, -, -, k5⟩ := hn _ _ hc
    rw [hq]
    exact Nat.le_trans k5 (h.fifo y m t e d h1 (h2 ▸ ht) (h3 ▸ he) k1)

theorem Line.congr {w w' : World} (h : Line w) (hq : w'.queue = w.queue)
    (hnx : w'.next = w.next) (hn : w'.nodes = w.nodes) : Line w' :=
  h.less hq hnx fun _ m' hy => ⟨m', by rw [← hn]; exact hy, rfl, rfl, id, Nat.le_refl _⟩

theorem under_congr {w w' : World} (hn : w'.nodes = w.nodes) (x : Nat) :
    ∀ fuel y, w'.under x fuel y = w.under x fuel y
  | 0, y => rfl
  | fuel + 1, y => by
    simp only [World.under, hn]
    congr 1
    cases w.nodes y with
    | none => rfl
    | some n =>
      cases hp : n.parent with
      | none => simp [hp]
      | some p => simp [hp, under_congr hn x fuel p]

theorem despawn_congr {w w' : World} (hn : w'.nodes = w.nodes) (hx : w'.next = w.next) (x : Nat) :
    (w'.despawn x).nodes = (w.despawn x).nodes := by
  funext y
  simp only [World.despawn, under_congr hn, hn, hx]

/-- The possible outcomes of executing what is at the front of the roster. -/
inductive Exec (w : World) (x : Nat) (rest : List Nat) (w' : World) : Prop where
  | skip (h : w' = { w with queue := rest })
      (hk : ∀ n, w.nodes x = some n → n.inputs ≠ [] → n.kind.leaf = false ∧ n.kind ≠ .taken)
  | start (n : Node) (s v : Nat) (more : List (Nat × Nat)) (hx : w.nodes x = some n)
      (hi : n.inputs = (s, v) :: more) (hk : n.kind = .step)
      (h : w' = { w.set x { n with inputs := more, kind := .busy s } with queue := rest })
  | item (n : Node) (s v : Nat) (more : List (Nat × Nat)) (hx : w.nodes x = some n)
      (hi : n.inputs = (s, v) :: more) (hk : n.kind = .takenStream)
      (h : w' = { w.set x { n with inputs := more } with
        queue := rest, received := w.received ++ [(x, v)] })
  | keep (n : Node) (s v e : Nat) (more : List (Nat × Nat)) (hx : w.nodes x = some n)
      (hi : n.inputs = (s, v) :: more) (hk : n.kind = .push e false)
      (h : w' = { w.set x { n with inputs := more } with
        queue := rest, collected := w.collected ++ [(e, s, v)] })
  | sent (n : Node) (s v : Nat) (more : List (Nat × Nat)) (hx : w.nodes x = some n)
      (hi : n.inputs = (s, v) :: more) (hk : n.kind = .taken)
      (hn : w'.nodes = (w.despawn x).nodes) (hq : w'.queue = rest) (hnx : w'.next = w.next)
      (ho : w'.outcomes = w.outcomes ++ [(x, .sent v)]) (hr : w'.received = w.received)
  | gone (n : Node) (s v : Nat) (more : List (Nat × Nat)) (hx : w.nodes x = some n)
      (hi : n.inputs = (s, v) :: more)
      (hk : n.kind = .event ∨ (∃ e, n.kind = .store e) ∨ ∃ e, n.kind = .push e true)
      (hn : w'.nodes = (w.despawn x).nodes) (hq : w'.queue = rest) (hnx : w'.next = w.next)
      (ho : w'.outcomes = w.outcomes) (hr : w'.received = w.received)

theorem set_same_despawn {w : World} {x : Nat} {n' : Node} (fuel y : Nat) :
    (w.set x n').under x fuel y = w.under x fuel y := by
  induction fuel generalizing y with
  | zero => rfl
  | succ fuel ih =>
    by_cases e : y = x
    · subst e; simp [World.under]
    · simp only [World.under, set_other _ _ e]
      congr 1
      cases w.nodes y with
      | none => rfl
      | some m =>
        cases hpm : m.parent with
        | none => simp [hpm]
        | some p => simp [hpm, ih]

theorem despawn_set {w w' : World} {x : Nat} {n' : Node}
    (hn : w'.nodes = (w.set x n').nodes) (hnx : w'.next = w.next) :
    (w'.despawn x).nodes = (w.despawn x).nodes := by
  have hu : ∀ fuel, w.under x fuel x = true := by
    intro fuel; cases fuel <;> simp [World.under]
  funext y
  simp only [World.despawn, hnx, under_congr hn, set_same_despawn]
  by_cases e : y = x
  · subst e; simp [hu]
  · rw [hn, set_other _ _ e]

theorem exec_cases (w : World) :
    (w.queue = [] ∧ w.exec = w) ∨
    ∃ x rest, w.queue = x :: rest ∧ Exec w x rest w.exec := by
  cases hq : w.queue with
  | nil => left; simp [World.exec, hq]
  | cons x rest =>
    right
    refine ⟨x, rest, rfl, ?_⟩
    cases hx : w.nodes x with
    | none =>
      refine .skip (by simp [World.exec, hq, hx]) ?_
      intro n hn
      rw [hx] at hn; cases hn
    | some n =>
      cases hi : n.inputs with
      | nil =>
        refine .skip (by simp [World.exec, hq, hx, hi]) ?_
        intro m hm hne
        rw [hx] at hm; cases hm
        exact absurd hi hne
      | cons a more =>
        obtain ⟨s, v⟩ := a
        have hskip : n.kind.leaf = false ∧ n.kind ≠ .taken →
            w.exec = { w with queue := rest } → Exec w x rest w.exec := by
          intro hk he
          refine .skip he ?_
          intro m hm _
          rw [hx] at hm; cases hm
          exact hk
        cases hk : n.kind with
        | idle => exact hskip (by simp [hk, Kind.leaf]) (by simp [World.exec, hq, hx, hi, hk])
        | busy _ => exact hskip (by simp [hk, Kind.leaf]) (by simp [World.exec, hq, hx, hi, hk])
        | done => exact hskip (by simp [hk, Kind.leaf]) (by simp [World.exec, hq, hx, hi, hk])
        | step =>
          exact .start n s v more hx hi hk (by simp [World.exec, hq, hx, hi, hk, World.set])
        | taken =>
          refine .sent n s v more hx hi hk ?_ ?_ ?_ ?_ ?_
          · simp only [World.exec, hq, hx, hi, hk]
            apply despawn_congr <;> rfl
          all_goals simp [World.exec, hq, hx, hi, hk, World.despawn]
        | takenStream =>
          exact .item n s v more hx hi hk (by simp [World.exec, hq, hx, hi, hk, World.set])
        | store e =>
          refine .gone n s v more hx hi (.inr (.inl ⟨e, hk⟩)) ?_ ?_ ?_ ?_ ?_
          · simp only [World.exec, hq, hx, hi, hk]
            apply despawn_congr <;> rfl
          all_goals simp [World.exec, hq, hx, hi, hk, World.despawn]
        | push e b =>
          cases b with
          | false =>
            exact .keep n s v e more hx hi hk (by simp [World.exec, hq, hx, hi, hk, World.set])
          | true =>
            refine .gone n s v more hx hi (.inr (.inr ⟨e, hk⟩)) ?_ ?_ ?_ ?_ ?_
            · simp only [World.exec, hq, hx, hi, hk, if_true]
              exact despawn_set (n' := { n with inputs := more, kind := .push e true })
                rfl rfl
            all_goals simp [World.exec, hq, hx, hi, hk, World.despawn, World.set]
        | event =>
          refine .gone n s v more hx hi (.inl hk) ?_ ?_ ?_ ?_ ?_
          · simp only [World.exec, hq, hx, hi, hk]
            apply despawn_congr <;> rfl
          all_goals simp [World.exec, hq, hx, hi, hk, World.despawn]

end Verif.Series
