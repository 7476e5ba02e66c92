import Verif.Series.Spec

/-
The entities of the series form a forest: each series is a tree whose root is its terminal.
-/
namespace Verif.Series

/-- The nodes that receive streams. -/
def Kind.leaf : Kind → Bool
  | .takenStream => true
  | .push _ true => true
  | _ => false

/-- How the parent, the target and the kind of a node fit together. -/
def Node.ok (n : Node) : Prop :=
  match n.kind with
  | .idle => n.parent = none ∧ n.target = none
  | .taken | .store _ | .push _ false | .event =>
    n.parent = none ∧ n.target = none ∧ n.cancellable = true
  | .step | .busy _ | .done => n.parent = n.target ∧ n.target.isSome ∧ n.cancellable = true
  | .takenStream | .push _ true =>
    n.target = none ∧ n.parent.isSome ∧ n.cancellable = true

structure Forest (w : World) : Prop where
  fresh : ∀ y, w.next ≤ y → w.nodes y = none
  rank : ∃ r : Nat → Nat, (∀ y, r y ≤ w.next) ∧
    (∀ y n p, w.nodes y = some n → n.parent = some p → r y < r p) ∧
    (∀ y n, w.nodes y = some n → n.kind.leaf = false → 0 < r y)
  alive : ∀ y n p, w.nodes y = some n → n.parent = some p →
    ∃ m, w.nodes p = some m ∧ m.kind.leaf = false
  ok : ∀ y n, w.nodes y = some n → n.ok

theorem Node.ok.targ {n : Node} (h : n.ok) {t : Nat} (ht : n.target = some t) :
    n.parent = some t := by
  unfold Node.ok at h
  split at h <;> simp_all

theorem Node.ok.nonleaf {n : Node} (h : n.ok) (hl : n.kind.leaf = false) :
    n.parent = n.target := by
  unfold Node.ok at h
  split at h <;> simp_all [Kind.leaf]

theorem Node.ok.leaf {n : Node} (h : n.ok) (hl : n.kind.leaf = true) :
    n.target = none ∧ n.parent.isSome := by
  unfold Node.ok at h
  split at h <;> simp_all [Kind.leaf]

theorem Node.ok.cancellable {n : Node} (h : n.ok) (hl : n.kind ≠ .idle) :
    n.cancellable = true := by
  unfold Node.ok at h
  split at h <;> simp_all

theorem Node.ok.idle {n : Node} (h : n.ok) (hl : n.kind = .idle) :
    n.parent = none ∧ n.target = none := by
  unfold Node.ok at h
  rw [hl] at h
  exact h

theorem set_self (w : World) (x : Nat) (n : Node) : (w.set x n).nodes x = some n := by
  simp [World.set]

theorem set_other (w : World) {x y : Nat} (n : Node) (h : y ≠ x) :
    (w.set x n).nodes y = w.nodes y := by
  simp [World.set, h]

theorem Forest.lt {w : World} (h : Forest w) {y : Nat} {n : Node} (hy : w.nodes y = some n) :
    y < w.next := by
  apply Nat.lt_of_not_le
  intro hle
  rw [h.fresh y hle] at hy
  cases hy

theorem Forest.congr {w w' : World} (h : Forest w) (hn : w'.nodes = w.nodes)
    (hx : w'.next = w.next) : Forest w' := by
  refine ⟨?_, ?_, ?_, ?_⟩
  · rw [hn, hx]; exact h.fresh
  · rw [hn, hx]; exact h.rank
  · rw [hn]; exact h.alive
  · rw [hn]; exact h.ok

/-- Inside depends on the parents only. -/
theorem Inside.congr {w w' : World} {t y : Nat}
    (hp : ∀ z n p, w.nodes z = some n → n.parent = some p →
      ∃ n', w'.nodes z = some n' ∧ n'.parent = some p)
    (h : Inside w t y) : Inside w' t y := by
  induction h with
  | self => exact .self
  | child hy hpar _ ih =>
    obtain ⟨n', h1, h2⟩ := hp _ _ _ hy hpar
    exact .child h1 h2 ih

theorem Inside.trans {w : World} {a b c : Nat} (h1 : Inside w b c) (h2 : Inside w a b) :
    Inside w a c := by
  induction h1 with
  | self => exact h2
  | child hy hpar _ ih => exact .child hy hpar ih

theorem inside_of_under (w : World) (x : Nat) : ∀ fuel y, w.under x fuel y = true → Inside w x y
  | 0, y, h => by
    simp [World.under] at h
    subst h
    exact .self
  | fuel + 1, y, h => by
    simp only [World.under, Bool.or_eq_true, decide_eq_true_eq] at h
    rcases h with h | h
    · subst h; exact .self
    · cases hy : w.nodes y with
      | none => simp [hy] at h
      | some n =>
        rw [hy] at h
        cases hp : n.parent with
        | none => simp [hp] at h
        | some p =>
          simp only [hp] at h
          exact .child hy hp (inside_of_under w x fuel p h)

theorem Inside.rank_le {w : World} {r : Nat → Nat}
    (hr : ∀ y n p, w.nodes y = some n → n.parent = some p → r y < r p) {t y : Nat}
    (h : Inside w t y) : r y ≤ r t := by
  induction h with
  | self => exact Nat.le_refl _
  | child hy hpar _ ih => exact Nat.le_trans (Nat.le_of_lt (hr _ _ _ hy hpar)) ih

theorem under_of_inside {w : World} {r : Nat → Nat}
    (hr : ∀ y n p, w.nodes y = some n → n.parent = some p → r y < r p) {x y : Nat}
    (h : Inside w x y) : ∀ fuel, r x ≤ r y + fuel → w.under x fuel y = true := by
  induction h with
  | self => intro fuel _; cases fuel <;> simp [World.under]
  | child hy hpar hi ih =>
    intro fuel hf
    have h1 := hr _ _ _ hy hpar
    have h2 := hi.rank_le hr
    cases fuel with
    | zero => omega
    | succ fuel =>
      simp only [World.under, hy, hpar, Bool.or_eq_true]
      exact .inr (ih fuel (by omega))

theorem under_iff {w : World} (h : Forest w) (x y : Nat) :
    w.under x w.next y = true ↔ Inside w x y := by
  constructor
  · exact inside_of_under w x w.next y
  · intro hi
    obtain ⟨r, hb, hr, _⟩ := h.rank
    exact under_of_inside hr hi _ (by have := hb x; omega)

theorem despawn_in {w : World} (h : Forest w) {x y : Nat} (hi : Inside w x y) :
    (w.despawn x).nodes y = none := by
  simp [World.despawn, (under_iff h x y).2 hi]

theorem despawn_out {w : World} (h : Forest w) {x y : Nat} (hi : ¬ Inside w x y) :
    (w.despawn x).nodes y = w.nodes y := by
  have : w.under x w.next y = false := by
    cases hu : w.under x w.next y with
    | false => rfl
    | true => exact absurd ((under_iff h x y).1 hu) hi
  simp [World.despawn, this]

theorem despawn_some {w : World} (h : Forest w) {x y : Nat} {n : Node}
    (hn : (w.despawn x).nodes y = some n) : ¬ Inside w x y ∧ w.nodes y = some n := by
  have hi : ¬ Inside w x y := fun hi => by rw [despawn_in h hi] at hn; cases hn
  exact ⟨hi, by rw [despawn_out h hi] at hn; exact hn⟩

theorem Forest.despawn {w : World} (h : Forest w) (x : Nat) : Forest (w.despawn x) := by
  obtain ⟨r, hb, hr, hl⟩ := h.rank
  refine ⟨?_, ⟨r, hb, ?_, ?_⟩, ?_, ?_⟩
  · intro y hy
    have hy' : w.next ≤ y := hy
    by_cases hi : Inside w x y
    · exact despawn_in h hi
    · rw [despawn_out h hi]; exact h.fresh y hy'
  · intro y n p hn hp
    exact hr y n p (despawn_some h hn).2 hp
  · intro y n hn hk
    exact hl y n (despawn_some h hn).2 hk
  · intro y n p hn hp
    obtain ⟨ho, hn'⟩ := despawn_some h hn
    obtain ⟨m, hm, hk⟩ := h.alive y n p hn' hp
    refine ⟨m, ?_, hk⟩
    rw [despawn_out h]
    · exact hm
    · intro hi; exact ho (.child hn' hp hi)
  · intro y n hn
    exact h.ok y n (despawn_some h hn).2

/-- Change a node without moving it. -/
theorem Forest.upd {w : World} (h : Forest w) {x : Nat} {n n' : Node} (hx : w.nodes x = some n)
    (hp : n'.parent = n.parent) (hk : n'.kind.leaf = n.kind.leaf) (hok : n'.ok) :
    Forest (w.set x n') := by
  obtain ⟨r, hb, hr, hl⟩ := h.rank
  refine ⟨?_, ⟨r, hb, ?_, ?_⟩, ?_, ?_⟩
  · intro y hy
    have : y ≠ x := by intro e; subst e; have := h.lt hx; simp [World.set] at hy; omega
    rw [set_other _ _ this]
    exact h.fresh y hy
  · intro y m p hm hpar
    by_cases e : y = x
    · subst e
      rw [set_self] at hm; cases hm
      exact hr _ _ _ hx (hp ▸ hpar)
    · rw [set_other _ _ e] at hm
      exact hr _ _ _ hm hpar
  · intro y m hm hlf
    by_cases e : y = x
    · subst e
      rw [set_self] at hm; cases hm
      exact hl _ _ hx (hk ▸ hlf)
    · rw [set_other _ _ e] at hm
      exact hl _ _ hm hlf
  · intro y m p hm hpar
    have : ∃ m, w.nodes p = some m ∧ m.kind.leaf = false := by
      by_cases e : y = x
      · subst e
        rw [set_self] at hm; cases hm
        exact h.alive _ _ _ hx (hp ▸ hpar)
      · rw [set_other _ _ e] at hm
        exact h.alive _ _ _ hm hpar
    obtain ⟨q, hq, hql⟩ := this
    by_cases e : p = x
    · subst e
      rw [hx] at hq; cases hq
      exact ⟨n', set_self _ _ _, by rw [hk]; exact hql⟩
    · exact ⟨q, by rw [set_other _ _ e]; exact hq, hql⟩
  · intro y m hm
    by_cases e : y = x
    · subst e
      rw [set_self] at hm; cases hm
      exact hok
    · rw [set_other _ _ e] at hm
      exact h.ok _ _ hm

theorem inside_upd {w : World} {x : Nat} {n n' : Node} (hx : w.nodes x = some n)
    (hp : n'.parent = n.parent) (t y : Nat) : Inside (w.set x n') t y ↔ Inside w t y := by
  constructor
  · refine Inside.congr ?_
    intro z m p hm hpar
    by_cases e : z = x
    · subst e
      rw [set_self] at hm; cases hm
      exact ⟨n, hx, hp ▸ hpar⟩
    · rw [set_other _ _ e] at hm
      exact ⟨m, hm, hpar⟩
  · refine Inside.congr ?_
    intro z m p hm hpar
    by_cases e : z = x
    · subst e
      rw [hx] at hm; cases hm
      exact ⟨n', set_self _ _ _, by rw [hp]; exact hpar⟩
    · exact ⟨m, by rw [set_other _ _ e]; exact hm, hpar⟩

theorem child_nodes (w : World) (p : Nat) (k : Kind) (y : Nat) :
    (w.child p k).nodes y = if y = w.next then some { parent := some p, kind := k, cancellable := true }
      else w.nodes y := by
  simp [World.child, World.set]

theorem Forest.child {w : World} (h : Forest w) {p : Nat} {m : Node} {k : Kind}
    (hm : w.nodes p = some m) (hml : m.kind.leaf = false) (hk : k.leaf = true) :
    Forest (w.child p k) := by
  obtain ⟨r, hb, hr, hl⟩ := h.rank
  have hpn : p ≠ w.next := Nat.ne_of_lt (h.lt hm)
  refine ⟨?_, ⟨fun y => if y = w.next then 0 else r y, ?_, ?_, ?_⟩, ?_, ?_⟩
  · intro y hy
    have hy' : w.next + 1 ≤ y := hy
    rw [child_nodes, if_neg (by omega)]
    exact h.fresh y (by omega)
  · intro y
    show _ ≤ w.next + 1
    have := hb y
    dsimp only
    split <;> omega
  · intro y n q hn hq
    rw [child_nodes] at hn
    split at hn
    · next e =>
      cases hn
      simp only [Option.some.injEq] at hq
      subst hq
      simp only [e, if_true, hpn, if_false]
      exact hl _ _ hm hml
    · next e =>
      obtain ⟨m', hm', _⟩ := h.alive _ _ _ hn hq
      have := h.lt hm'
      simp only [e, if_false, Nat.ne_of_lt this]
      exact hr _ _ _ hn hq
  · intro y n hn hnl
    rw [child_nodes] at hn
    split at hn
    · cases hn
      simp only [hk] at hnl
      cases hnl
    · next e =>
      simp only [e, if_false]
      exact hl _ _ hn hnl
  · intro y n q hn hq
    rw [child_nodes] at hn
    have : ∃ m, w.nodes q = some m ∧ m.kind.leaf = false := by
      split at hn
      · cases hn
        simp only [Option.some.injEq] at hq
        subst hq
        exact ⟨m, hm, hml⟩
      · exact h.alive _ _ _ hn hq
    obtain ⟨m', h1, h2⟩ := this
    refine ⟨m', ?_, h2⟩
    rw [child_nodes, if_neg (Nat.ne_of_lt (h.lt h1))]
    exact h1
  · intro y n hn
    rw [child_nodes] at hn
    split at hn
    · cases hn
      unfold Node.ok
      cases k with
      | takenStream => simp
      | push e b =>
        cases b with
        | true => simp
        | false => simp [Kind.leaf] at hk
      | _ => simp [Kind.leaf] at hk
    · exact h.ok _ _ hn

theorem request_nodes (w : World) (v y : Nat) :
    (w.request v).nodes y =
      if y = w.next + 1 then
        some { parent := some w.next, target := some w.next, kind := .step,
               inputs := [(w.next + 1, v)], cancellable := true }
      else if y = w.next then some {} else w.nodes y := by
  simp [World.request, World.set]

theorem Forest.request {w : World} (h : Forest w) (v : Nat) : Forest (w.request v) := by
  obtain ⟨r, hb, hr, hl⟩ := h.rank
  refine ⟨?_, ⟨fun y => if y = w.next + 1 then w.next + 1 else if y = w.next then w.next + 2
    else r y, ?_, ?_, ?_⟩, ?_, ?_⟩
  · intro y hy
    have hy' : w.next + 2 ≤ y := hy
    rw [request_nodes, if_neg (by omega), if_neg (by omega)]
    exact h.fresh y (by omega)
  · intro y
    show _ ≤ w.next + 2
    have := hb y
    dsimp only
    split
    · omega
    · split <;> omega
  · intro y n q hn hq
    rw [request_nodes] at hn
    split at hn
    · next e =>
      cases hn
      simp only [Option.some.injEq] at hq
      subst hq
      simp [e]
    · next e =>
      split at hn
      · cases hn; simp at hq
      · next e' =>
        obtain ⟨m', hm', _⟩ := h.alive _ _ _ hn hq
        have := h.lt hm'
        simp only [e, e', if_false]
        rw [if_neg (by omega), if_neg (by omega)]
        exact hr _ _ _ hn hq
  · intro y n hn hnl
    rw [request_nodes] at hn
    split at hn
    · next e => simp [e]
    · next e =>
      split at hn
      · next e' => simp [e']
      · next e' =>
        simp only [e, e', if_false]
        exact hl _ _ hn hnl
  · intro y n q hn hq
    rw [request_nodes] at hn
    split at hn
    · cases hn
      simp only [Option.some.injEq] at hq
      subst hq
      refine ⟨{}, ?_, rfl⟩
      rw [request_nodes, if_neg (by omega), if_pos rfl]
    · split at hn
      · cases hn; simp at hq
      · obtain ⟨m', hm', hk⟩ := h.alive _ _ _ hn hq
        have := h.lt hm'
        refine ⟨m', ?_, hk⟩
        rw [request_nodes, if_neg (by omega), if_neg (by omega)]
        exact hm'
  · intro y n hn
    rw [request_nodes] at hn
    split at hn
    · cases hn; simp [Node.ok]
    · split at hn
      · cases hn; simp [Node.ok]
      · exact h.ok _ _ hn

/-- The node that was a terminal and becomes a step. -/
def Node.promoted (n : Node) (u : Nat) : Node :=
  { n with parent := some u, target := some u, kind := .step, cancellable := true }

theorem next_nodes {w : World} {t : Nat} {n : Node} (ht : w.nodes t = some n)
    (hk : n.kind = .idle) (y : Nat) :
    (w.next' t).nodes y =
      if y = t then some (n.promoted w.next) else if y = w.next then some {} else w.nodes y := by
  simp [World.next', World.set, ht, hk, Node.promoted]

theorem next_next {w : World} {t : Nat} {n : Node} (ht : w.nodes t = some n)
    (hk : n.kind = .idle) : (w.next' t).next = w.next + 1 ∧ (w.next' t).queue = w.queue := by
  simp [World.next', World.set, ht, hk]

theorem next_skip {w : World} {t : Nat}
    (h : ∀ n, w.nodes t = some n → n.kind ≠ .idle) : w.next' t = w := by
  unfold World.next'
  cases ht : w.nodes t with
  | none => rfl
  | some n => simp [h n ht]

theorem Forest.promote {w : World} (h : Forest w) (t : Nat) : Forest (w.next' t) := by
  by_cases hc : ∃ n, w.nodes t = some n ∧ n.kind = .idle
  · obtain ⟨n, ht, hk⟩ := hc
    obtain ⟨r, hb, hr, hl⟩ := h.rank
    have htn : t < w.next := h.lt ht
    have hnx := (next_next ht hk).1
    refine ⟨?_, ⟨fun y => if y = w.next then w.next + 1 else r y, ?_, ?_, ?_⟩, ?_, ?_⟩
    · intro y hy
      rw [hnx] at hy
      rw [next_nodes ht hk, if_neg (by omega), if_neg (by omega)]
      exact h.fresh y (by omega)
    · intro y
      rw [hnx]
      have := hb y
      show (if y = w.next then w.next + 1 else r y) ≤ _
      split <;> omega
    · intro y m q hm hq
      rw [next_nodes ht hk] at hm
      split at hm
      · next e =>
        cases hm
        simp only [Node.promoted, Option.some.injEq] at hq
        subst hq e
        have := hb y
        simp only [Nat.ne_of_lt htn, if_false, if_true]
        omega
      · next e =>
        split at hm
        · cases hm; simp at hq
        · next e' =>
          obtain ⟨m', hm', _⟩ := h.alive _ _ _ hm hq
          have := h.lt hm'
          simp only [e', if_false, Nat.ne_of_lt this]
          exact hr _ _ _ hm hq
    · intro y m hm hml
      rw [next_nodes ht hk] at hm
      split at hm
      · next e =>
        subst e
        simp only [Nat.ne_of_lt htn, if_false]
        exact hl _ _ ht (by rw [hk]; rfl)
      · split at hm
        · next e' => simp [e']
        · next e' =>
          simp only [e', if_false]
          exact hl _ _ hm hml
    · intro y m q hm hq
      rw [next_nodes ht hk] at hm
      have : q = w.next ∨ ∃ m, w.nodes q = some m ∧ m.kind.leaf = false := by
        split at hm
        · cases hm
          simp only [Node.promoted, Option.some.injEq] at hq
          exact .inl hq.symm
        · split at hm
          · cases hm; simp at hq
          · exact .inr (h.alive _ _ _ hm hq)
      rw [next_nodes ht hk]
      rcases this with e | ⟨m', h1, h2⟩
      · subst e
        rw [if_neg (by omega), if_pos rfl]
        exact ⟨_, rfl, rfl⟩
      · by_cases e : q = t
        · rw [if_pos e]; exact ⟨_, rfl, rfl⟩
        · rw [if_neg e, if_neg (Nat.ne_of_lt (h.lt h1))]; exact ⟨m', h1, h2⟩
    · intro y m hm
      rw [next_nodes ht hk] at hm
      split at hm
      · cases hm; simp [Node.ok, Node.promoted]
      · split at hm
        · cases hm; simp [Node.ok]
        · exact h.ok _ _ hm
  · rw [next_skip]
    · exact h
    · intro n hn hk; exact hc ⟨n, hn, hk⟩

end Verif.Series
