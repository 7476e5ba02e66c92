import Verif.Series.Forest

/-
Invariants that do not involve the roster: targets, stream maps and sessions.
-/
namespace Verif.Series

/-- The session that the node has work of. -/
def Node.works (n : Node) (s : Nat) : Prop := (∃ v, (s, v) ∈ n.inputs) ∨ n.kind = .busy s

/-- The session lives and belongs to the same series as the node. -/
def Good (w : World) (s y : Nat) : Prop :=
  ∃ t, Inside w t s ∧ Inside w t y ∧ (∃ m, w.nodes t = some m ∧ m.parent = none) ∧
    ∃ m, w.nodes s = some m ∧ m.kind.leaf = false

structure Net (w : World) : Prop where
  forest : Forest w
  inj : ∀ x y n m t, w.nodes x = some n → w.nodes y = some m → n.target = some t →
    m.target = some t → x = y
  mapSrc : ∀ x n, w.nodes x = some n → n.target = none → n.streams = []
  mapLt : ∀ x n e, w.nodes x = some n → e ∈ n.streams → e.2 < w.next
  mapLeaf : ∀ x n e m, w.nodes x = some n → e ∈ n.streams → w.nodes e.2 = some m →
    m.kind.leaf = true ∧ (m.parent = some x ∨ m.parent = n.target)
  mapOne : ∀ x y n m e f, w.nodes x = some n → w.nodes y = some m → e ∈ n.streams →
    f ∈ m.streams → e.2 = f.2 → x = y
  sess : ∀ y n s, w.nodes y = some n → n.works s → Good w s y

theorem Net.congr {w w' : World} (h : Net w) (hn : w'.nodes = w.nodes)
    (hx : w'.next = w.next) : Net w' := by
  have hin : ∀ t y, Inside w t y → Inside w' t y := fun t y hi =>
    hi.congr fun z n p hz hp => ⟨n, by rw [hn]; exact hz, hp⟩
  refine ⟨h.forest.congr hn hx, ?_, ?_, ?_, ?_, ?_, ?_⟩
  · rw [hn]; exact h.inj
  · rw [hn]; exact h.mapSrc
  · rw [hn, hx]; exact h.mapLt
  · rw [hn]; exact h.mapLeaf
  · rw [hn]; exact h.mapOne
  · intro y n s hy hw
    rw [hn] at hy
    obtain ⟨t, h1, h2, h3, h4⟩ := h.sess y n s hy hw
    exact ⟨t, hin _ _ h1, hin _ _ h2, by rw [hn]; exact h3, by rw [hn]; exact h4⟩

theorem Good.upd {w : World} {x : Nat} {n n' : Node} (hx : w.nodes x = some n)
    (hp : n'.parent = n.parent) (hk : n'.kind.leaf = n.kind.leaf) {s y : Nat}
    (h : Good w s y) : Good (w.set x n') s y := by
  obtain ⟨t, h1, h2, ⟨m, h3, h3'⟩, ⟨q, h4, h4'⟩⟩ := h
  refine ⟨t, (inside_upd hx hp _ _).2 h1, (inside_upd hx hp _ _).2 h2, ?_, ?_⟩
  · by_cases e : t = x
    · subst e
      rw [hx] at h3; cases h3
      exact ⟨n', set_self _ _ _, by rw [hp]; exact h3'⟩
    · exact ⟨m, by rw [set_other _ _ e]; exact h3, h3'⟩
  · by_cases e : s = x
    · subst e
      rw [hx] at h4; cases h4
      exact ⟨n', set_self _ _ _, by rw [hk]; exact h4'⟩
    · exact ⟨q, by rw [set_other _ _ e]; exact h4, h4'⟩

/-- Change the map of a node and its work, without moving it. -/
theorem Net.updMap {w : World} (h : Net w) {x : Nat} {n n' : Node} (hx : w.nodes x = some n)
    (hp : n'.parent = n.parent) (ht : n'.target = n.target)
    (hk : n'.kind.leaf = n.kind.leaf) (hok : n'.ok)
    (hm : ∀ e, e ∈ n'.streams → e ∈ n.streams ∨
      (n.target ≠ none ∧ e.2 < w.next ∧
        (∀ m, w.nodes e.2 = some m → m.kind.leaf = true ∧
          (m.parent = some x ∨ m.parent = n.target)) ∧
        ∀ y m f, w.nodes y = some m → f ∈ m.streams → e.2 ≠ f.2))
    (hw : ∀ s, n'.works s → Good w s x) : Net (w.set x n') := by
  have hold : ∀ y m, (w.set x n').nodes y = some m → y ≠ x → w.nodes y = some m := by
    intro y m hy e
    rw [set_other _ _ e] at hy
    exact hy
  have htar : ∀ y m, (w.set x n').nodes y = some m →
      ∃ q, w.nodes y = some q ∧ m.target = q.target ∧ m.parent = q.parent ∧
        m.kind.leaf = q.kind.leaf := by
    intro y m hy
    by_cases e : y = x
    · subst e
      rw [set_self] at hy; cases hy
      exact ⟨n, hx, ht, hp, hk⟩
    · exact ⟨m, hold y m hy e, rfl, rfl, rfl⟩
  refine ⟨h.forest.upd hx hp hk hok, ?_, ?_, ?_, ?_, ?_, ?_⟩
  · intro a b na nb t ha hb hat hbt
    obtain ⟨qa, h1, h2, -⟩ := htar _ _ ha
    obtain ⟨qb, h3, h4, -⟩ := htar _ _ hb
    exact h.inj a b qa qb t h1 h3 (h2 ▸ hat) (h4 ▸ hbt)
  · intro a na ha hat
    by_cases e : a = x
    · subst e
      rw [set_self] at ha; cases ha
      have h0 := h.mapSrc _ _ hx (ht ▸ hat)
      apply List.eq_nil_iff_forall_not_mem.2
      intro f hf
      rcases hm f hf with hf | ⟨h1, -⟩
      · rw [h0] at hf; cases hf
      · exact h1 (ht ▸ hat)
    · exact h.mapSrc _ _ (hold _ _ ha e) hat
  · intro a na e ha he
    by_cases ea : a = x
    · subst ea
      rw [set_self] at ha; cases ha
      rcases hm e he with h1 | ⟨-, h1, -⟩
      · exact h.mapLt _ _ _ hx h1
      · exact h1
    · exact h.mapLt _ _ _ (hold _ _ ha ea) he
  · intro a na e m ha he hme
    obtain ⟨q, hq, hqt, hqp, hqk⟩ := htar _ _ hme
    rw [hqk, hqp]
    by_cases ea : a = x
    · subst ea
      rw [set_self] at ha; cases ha
      rw [ht]
      rcases hm e he with h1 | ⟨-, -, h1, -⟩
      · exact h.mapLeaf _ _ _ _ hx h1 hq
      · exact h1 _ hq
    · exact h.mapLeaf _ _ _ _ (hold _ _ ha ea) he hq
  · intro a b na nb e f ha hb he hf hef
    by_cases ea : a = x
    · by_cases eb : b = x
      · rw [ea, eb]
      · subst ea
        rw [set_self] at ha; cases ha
        have hb' := hold _ _ hb eb
        rcases hm e he with h1 | ⟨-, -, -, h1⟩
        · exact h.mapOne _ _ _ _ _ _ hx hb' h1 hf hef
        · exact absurd hef (h1 _ _ _ hb' hf)
    · have ha' := hold _ _ ha ea
      by_cases eb : b = x
      · subst eb
        rw [set_self] at hb; cases hb
        rcases hm f hf with h1 | ⟨-, -, -, h1⟩
        · exact h.mapOne _ _ _ _ _ _ ha' hx he h1 hef
        · exact absurd hef.symm (h1 _ _ _ ha' he)
      · exact h.mapOne _ _ _ _ _ _ ha' (hold _ _ hb eb) he hf hef
  · intro y m s hy hs
    apply Good.upd hx hp hk
    by_cases e : y = x
    · subst e
      rw [set_self] at hy; cases hy
      exact hw s hs
    · exact h.sess _ _ _ (hold _ _ hy e) hs

/-- Change the work of a node. -/
theorem Net.upd {w : World} (h : Net w) {x : Nat} {n n' : Node} (hx : w.nodes x = some n)
    (hp : n'.parent = n.parent) (ht : n'.target = n.target)
    (hk : n'.kind.leaf = n.kind.leaf) (hok : n'.ok) (hm : n'.streams = n.streams)
    (hw : ∀ s, n'.works s → Good w s x) : Net (w.set x n') :=
  h.updMap hx hp ht hk hok (fun _ he => .inl (hm ▸ he)) hw

theorem Inside.despawn {w : World} (hf : Forest w) {x t y : Nat} (h : Inside w t y)
    (ho : ¬ Inside w x y) : Inside (w.despawn x) t y := by
  induction h with
  | self => exact .self
  | child hy hp hi ih =>
    exact .child (by rw [despawn_out hf ho]; exact hy) hp (ih fun hi' => ho (.child hy hp hi'))

theorem Inside.root_unique {w : World} {a b y : Nat} (h1 : Inside w a y) (h2 : Inside w b y)
    (ha : ∀ m, w.nodes a = some m → m.parent = none)
    (hb : ∀ m, w.nodes b = some m → m.parent = none) : a = b := by
  induction h1 with
  | self =>
    cases h2 with
    | self => rfl
    | child hy hp _ => rw [ha _ hy] at hp; cases hp
  | child hy hp hi ih =>
    cases h2 with
    | self => rw [hb _ hy] at hp; cases hp
    | child hy' hp' hi' =>
      rw [hy] at hy'; cases hy'
      rw [hp] at hp'; cases hp'
      exact ih hi'

theorem Inside.leaf {w : World} (hf : Forest w) {x y : Nat} {n : Node} (hx : w.nodes x = some n)
    (hk : n.kind.leaf = true) (h : Inside w x y) : y = x := by
  induction h with
  | self => rfl
  | child hy hp _ ih =>
    subst ih
    obtain ⟨m, hm, hml⟩ := hf.alive _ _ _ hy hp
    rw [hx] at hm; cases hm
    rw [hk] at hml; cases hml

/-- What can be despawned: the root of a series, or the receiver of a stream. -/
def Root (w : World) (x : Nat) : Prop :=
  ∃ n, w.nodes x = some n ∧ (n.parent = none ∨ n.kind.leaf = true)

theorem Good.despawn {w : World} (hf : Forest w) {x s y : Nat} (hx : Root w x)
    (ho : ¬ Inside w x y) (h : Good w s y) : Good (w.despawn x) s y := by
  obtain ⟨t, h1, h2, ⟨m, h3, h3'⟩, ⟨q, h4, h4'⟩⟩ := h
  obtain ⟨n, hn, hr⟩ := hx
  have key : ¬ Inside w x s ∧ ¬ Inside w x t := by
    rcases hr with hr | hr
    · have hs : ¬ Inside w x s := by
        intro hi
        have := h1.root_unique hi (fun _ h => by rw [h3] at h; cases h; exact h3')
          (fun _ h => by rw [hn] at h; cases h; exact hr)
        subst this
        exact ho h2
      refine ⟨hs, fun hi => hs (h1.trans hi)⟩
    · constructor
      · intro hi
        have := hi.leaf hf hn hr
        subst this
        rw [h4] at hn; cases hn
        rw [h4'] at hr; cases hr
      · intro hi
        have := hi.leaf hf hn hr
        subst this
        rw [h3] at hn; cases hn
        have := ((hf.ok _ _ h3).leaf hr).2
        rw [h3'] at this; cases this
  refine ⟨t, h1.despawn hf key.1, h2.despawn hf ho, ?_, ?_⟩
  · exact ⟨m, by rw [despawn_out hf key.2]; exact h3, h3'⟩
  · exact ⟨q, by rw [despawn_out hf key.1]; exact h4, h4'⟩

theorem Net.despawn {w : World} (h : Net w) {x : Nat} (hx : Root w x) : Net (w.despawn x) := by
  have hf := h.forest
  refine ⟨hf.despawn x, ?_, ?_, ?_, ?_, ?_, ?_⟩
  · intro a b na nb t ha hb
    exact h.inj a b na nb t (despawn_some hf ha).2 (despawn_some hf hb).2
  · intro a na ha
    exact h.mapSrc a na (despawn_some hf ha).2
  · intro a na e ha
    exact h.mapLt a na e (despawn_some hf ha).2
  · intro a na e m ha he hm
    exact h.mapLeaf a na e m (despawn_some hf ha).2 he (despawn_some hf hm).2
  · intro a b na nb e f ha hb
    exact h.mapOne a b na nb e f (despawn_some hf ha).2 (despawn_some hf hb).2
  · intro y n s hy hw
    obtain ⟨ho, hy'⟩ := despawn_some hf hy
    exact (h.sess y n s hy' hw).despawn hf hx ho

/-- More nodes, none of the old ones changed. -/
theorem Good.grow {w w' : World} (hg : ∀ y n, w.nodes y = some n → w'.nodes y = some n)
    {s y : Nat} (h : Good w s y) : Good w' s y := by
  have hin : ∀ t y, Inside w t y → Inside w' t y := fun t y hi =>
    hi.congr fun z n p hz hp => ⟨n, hg _ _ hz, hp⟩
  obtain ⟨t, h1, h2, ⟨m, h3, h3'⟩, ⟨q, h4, h4'⟩⟩ := h
  exact ⟨t, hin _ _ h1, hin _ _ h2, ⟨m, hg _ _ h3, h3'⟩, ⟨q, hg _ _ h4, h4'⟩⟩

theorem Net.child {w : World} (h : Net w) {p : Nat} {m : Node} {k : Kind}
    (hm : w.nodes p = some m) (hml : m.kind.leaf = false) (hk : k.leaf = true) :
    Net (w.child p k) := by
  have hf := h.forest
  have hnode : ∀ y n, (w.child p k).nodes y = some n →
      w.nodes y = some n ∨
      (y = w.next ∧ n = { parent := some p, kind := k, cancellable := true }) := by
    intro y n hy
    rw [child_nodes] at hy
    split at hy
    · next e => cases hy; exact .inr ⟨e, rfl⟩
    · exact .inl hy
  have hg : ∀ y n, w.nodes y = some n → (w.child p k).nodes y = some n := by
    intro y n hy
    rw [child_nodes, if_neg (Nat.ne_of_lt (hf.lt hy))]
    exact hy
  refine ⟨hf.child hm hml hk, ?_, ?_, ?_, ?_, ?_, ?_⟩
  · intro a b na nb t ha hb hat hbt
    rcases hnode _ _ ha with ha | ⟨-, rfl⟩
    · rcases hnode _ _ hb with hb | ⟨-, rfl⟩
      · exact h.inj _ _ _ _ _ ha hb hat hbt
      · simp at hbt
    · simp at hat
  · intro a na ha hat
    rcases hnode _ _ ha with ha | ⟨-, rfl⟩
    · exact h.mapSrc _ _ ha hat
    · rfl
  · intro a na e ha he
    rcases hnode _ _ ha with ha | ⟨-, rfl⟩
    · exact Nat.lt_succ_of_lt (h.mapLt _ _ _ ha he)
    · simp at he
  · intro a na e q ha he hq
    rcases hnode _ _ ha with ha | ⟨-, rfl⟩
    · rcases hnode _ _ hq with hq | ⟨e', -⟩
      · exact h.mapLeaf _ _ _ _ ha he hq
      · have := h.mapLt _ _ _ ha he
        omega
    · simp at he
  · intro a b na nb e f ha hb he hf hef
    rcases hnode _ _ ha with ha | ⟨-, rfl⟩
    · rcases hnode _ _ hb with hb | ⟨-, rfl⟩
      · exact h.mapOne _ _ _ _ _ _ ha hb he hf hef
      · simp at hf
    · simp at he
  · intro y n s hy hs
    rcases hnode _ _ hy with hy | ⟨-, rfl⟩
    · exact (h.sess _ _ _ hy hs).grow hg
    · rcases hs with ⟨v, hv⟩ | hb
      · simp at hv
      · simp only at hb; subst hb; simp [Kind.leaf] at hk

theorem Net.request {w : World} (h : Net w) (v : Nat) : Net (w.request v) := by
  have hf := h.forest
  have hnode : ∀ y n, (w.request v).nodes y = some n →
      w.nodes y = some n ∨ (y = w.next ∧ n = {}) ∨
      (y = w.next + 1 ∧ n = { parent := some w.next, target := some w.next, kind := .step,
                              inputs := [(w.next + 1, v)], cancellable := true }) := by
    intro y n hy
    rw [request_nodes] at hy
    split at hy
    · next e => cases hy; exact .inr (.inr ⟨e, rfl⟩)
    · split at hy
      · next e => cases hy; exact .inr (.inl ⟨e, rfl⟩)
      · exact .inl hy
  have hg : ∀ y n, w.nodes y = some n → (w.request v).nodes y = some n := by
    intro y n hy
    have := hf.lt hy
    rw [request_nodes, if_neg (by omega), if_neg (by omega)]
    exact hy
  have hpar : ∀ y n t, w.nodes y = some n → n.target = some t → t < w.next := by
    intro y n t hy ht
    obtain ⟨m, hm, -⟩ := hf.alive _ _ _ hy ((hf.ok _ _ hy).targ ht)
    exact hf.lt hm
  refine ⟨hf.request v, ?_, ?_, ?_, ?_, ?_, ?_⟩
  · intro a b na nb t ha hb hat hbt
    rcases hnode _ _ ha with ha | ⟨-, rfl⟩ | ⟨ea, rfl⟩
    · rcases hnode _ _ hb with hb | ⟨-, rfl⟩ | ⟨eb, rfl⟩
      · exact h.inj _ _ _ _ _ ha hb hat hbt
      · simp at hbt
      · have := hpar _ _ _ ha hat
        simp only [Option.some.injEq] at hbt
        omega
    · simp at hat
    · rcases hnode _ _ hb with hb | ⟨-, rfl⟩ | ⟨eb, rfl⟩
      · have := hpar _ _ _ hb hbt
        simp only [Option.some.injEq] at hat
        omega
      · simp at hbt
      · omega
  · intro a na ha hat
    rcases hnode _ _ ha with ha | ⟨-, rfl⟩ | ⟨ea, rfl⟩
    · exact h.mapSrc _ _ ha hat
    · rfl
    · rfl
  · intro a na e ha he
    show _ < w.next + 2
    rcases hnode _ _ ha with ha | ⟨-, rfl⟩ | ⟨ea, rfl⟩
    · have := h.mapLt _ _ _ ha he
      omega
    · simp at he
    · simp at he
  · intro a na e q ha he hq
    rcases hnode _ _ ha with ha | ⟨-, rfl⟩ | ⟨ea, rfl⟩
    · have := h.mapLt _ _ _ ha he
      rcases hnode _ _ hq with hq | ⟨e', -⟩ | ⟨e', -⟩
      · exact h.mapLeaf _ _ _ _ ha he hq
      · omega
      · omega
    · simp at he
    · simp at he
  · intro a b na nb e f ha hb he hf hef
    rcases hnode _ _ ha with ha | ⟨-, rfl⟩ | ⟨ea, rfl⟩
    · rcases hnode _ _ hb with hb | ⟨-, rfl⟩ | ⟨eb, rfl⟩
      · exact h.mapOne _ _ _ _ _ _ ha hb he hf hef
      · simp at hf
      · simp at hf
    · simp at he
    · simp at he
  · intro y n s hy hs
    rcases hnode _ _ hy with hy | ⟨-, rfl⟩ | ⟨ey, rfl⟩
    · exact (h.sess _ _ _ hy hs).grow hg
    · rcases hs with ⟨v, hv⟩ | hb
      · simp at hv
      · simp at hb
    · rcases hs with ⟨v', hv⟩ | hb
      · simp only [List.mem_singleton, Prod.mk.injEq] at hv
        obtain ⟨rfl, rfl⟩ := hv
        subst ey
        have hin : Inside (w.request v') w.next (w.next + 1) := .child hy rfl .self
        refine ⟨w.next, hin, hin, ⟨{}, ?_, rfl⟩, ⟨_, hy, rfl⟩⟩
        rw [request_nodes, if_neg (by omega), if_pos rfl]
      · simp at hb

theorem Good.promote {w : World} (hf : Forest w) {t : Nat} {n : Node} (ht : w.nodes t = some n)
    (hk : n.kind = .idle) {s y : Nat} (h : Good w s y) : Good (w.next' t) s y := by
  have hp := ((hf.ok _ _ ht).idle hk).1
  have htn := hf.lt ht
  have hin : ∀ a b, Inside w a b → Inside (w.next' t) a b := by
    intro a b hi
    refine hi.congr fun z m p hz hpar => ?_
    have hzt : z ≠ t := by
      intro e
      subst e
      rw [ht] at hz; cases hz
      rw [hp] at hpar; cases hpar
    refine ⟨m, ?_, hpar⟩
    rw [next_nodes ht hk, if_neg hzt, if_neg (Nat.ne_of_lt (hf.lt hz))]
    exact hz
  have htu : (w.next' t).nodes t = some (n.promoted w.next) := by
    rw [next_nodes ht hk, if_pos rfl]
  have hu : (w.next' t).nodes w.next = some {} := by
    rw [next_nodes ht hk, if_neg (by omega), if_pos rfl]
  obtain ⟨r, h1, h2, ⟨m, h3, h3'⟩, ⟨q, h4, h4'⟩⟩ := h
  have hs : ∃ m, (w.next' t).nodes s = some m ∧ m.kind.leaf = false := by
    by_cases e : s = t
    · subst e; exact ⟨_, htu, rfl⟩
    · refine ⟨q, ?_, h4'⟩
      rw [next_nodes ht hk, if_neg e, if_neg (Nat.ne_of_lt (hf.lt h4))]
      exact h4
  by_cases e : r = t
  · subst e
    have hru : Inside (w.next' r) w.next r := .child htu rfl .self
    exact ⟨w.next, (hin _ _ h1).trans hru, (hin _ _ h2).trans hru, ⟨{}, hu, rfl⟩, hs⟩
  · refine ⟨r, hin _ _ h1, hin _ _ h2, ⟨m, ?_, h3'⟩, hs⟩
    rw [next_nodes ht hk, if_neg e, if_neg (Nat.ne_of_lt (hf.lt h3))]
    exact h3

theorem Net.promote {w : World} (h : Net w) (t : Nat) : Net (w.next' t) := by
  have hf := h.forest
  by_cases hc : ∃ n, w.nodes t = some n ∧ n.kind = .idle
  rotate_left
  · rw [next_skip]
    · exact h
    · intro n hn hk; exact hc ⟨n, hn, hk⟩
  obtain ⟨n, ht, hk⟩ := hc
  have htn := hf.lt ht
  have hnx := (next_next ht hk).1
  have hms := h.mapSrc _ _ ht ((hf.ok _ _ ht).idle hk).2
  have hnode : ∀ y m, (w.next' t).nodes y = some m →
      (y ≠ t ∧ w.nodes y = some m) ∨ (y = w.next ∧ m = {}) ∨ (y = t ∧ m = n.promoted w.next) := by
    intro y m hy
    rw [next_nodes ht hk] at hy
    split at hy
    · next e => cases hy; exact .inr (.inr ⟨e, rfl⟩)
    · next e0 =>
      split at hy
      · next e => cases hy; exact .inr (.inl ⟨e, rfl⟩)
      · exact .inl ⟨e0, hy⟩
  have hpar : ∀ y n t, w.nodes y = some n → n.target = some t → t < w.next := by
    intro y n t hy ht
    obtain ⟨m, hm, -⟩ := hf.alive _ _ _ hy ((hf.ok _ _ hy).targ ht)
    exact hf.lt hm
  refine ⟨hf.promote t, ?_, ?_, ?_, ?_, ?_, ?_⟩
  · intro a b na nb c ha hb hat hbt
    rcases hnode _ _ ha with ⟨-, ha⟩ | ⟨-, rfl⟩ | ⟨ea, rfl⟩
    · rcases hnode _ _ hb with ⟨-, hb⟩ | ⟨-, rfl⟩ | ⟨eb, rfl⟩
      · exact h.inj _ _ _ _ _ ha hb hat hbt
      · simp at hbt
      · have := hpar _ _ _ ha hat
        simp only [Node.promoted, Option.some.injEq] at hbt
        omega
    · simp at hat
    · rcases hnode _ _ hb with ⟨-, hb⟩ | ⟨-, rfl⟩ | ⟨eb, rfl⟩
      · have := hpar _ _ _ hb hbt
        simp only [Node.promoted, Option.some.injEq] at hat
        omega
      · simp at hbt
      · omega
  · intro a na ha hat
    rcases hnode _ _ ha with ⟨-, ha⟩ | ⟨-, rfl⟩ | ⟨ea, rfl⟩
    · exact h.mapSrc _ _ ha hat
    · rfl
    · exact hms
  · intro a na e ha he
    rw [hnx]
    rcases hnode _ _ ha with ⟨-, ha⟩ | ⟨-, rfl⟩ | ⟨ea, rfl⟩
    · exact Nat.lt_succ_of_lt (h.mapLt _ _ _ ha he)
    · simp at he
    · simp [Node.promoted, hms] at he
  · intro a na e q ha he hq
    rcases hnode _ _ ha with ⟨-, ha⟩ | ⟨-, rfl⟩ | ⟨ea, rfl⟩
    · have := h.mapLt _ _ _ ha he
      rcases hnode _ _ hq with ⟨-, hq⟩ | ⟨e', -⟩ | ⟨e', -⟩
      · exact h.mapLeaf _ _ _ _ ha he hq
      · omega
      · have := (h.mapLeaf _ _ _ _ ha he (e' ▸ ht)).1
        rw [hk] at this
        cases this
    · simp at he
    · simp [Node.promoted, hms] at he
  · intro a b na nb e f ha hb he hf hef
    rcases hnode _ _ ha with ⟨-, ha⟩ | ⟨-, rfl⟩ | ⟨ea, rfl⟩
    · rcases hnode _ _ hb with ⟨-, hb⟩ | ⟨-, rfl⟩ | ⟨eb, rfl⟩
      · exact h.mapOne _ _ _ _ _ _ ha hb he hf hef
      · simp at hf
      · simp [Node.promoted, hms] at hf
    · simp at he
    · simp [Node.promoted, hms] at he
  · intro y m s hy hs
    rcases hnode _ _ hy with ⟨-, hy⟩ | ⟨-, rfl⟩ | ⟨ey, rfl⟩
    · exact (h.sess _ _ _ hy hs).promote hf ht hk
    · rcases hs with ⟨v, hv⟩ | hb
      · simp at hv
      · simp at hb
    · subst ey
      rcases hs with ⟨v, hv⟩ | hb
      · exact (h.sess _ _ _ ht (.inl ⟨v, hv⟩)).promote hf ht hk
      · simp [Node.promoted] at hb

end Verif.Series
