import Verif.Editor.EditProps
/-
Operations can be added one by one until all those of a diagram are there. For C128.
-/
namespace Verif.Editor

/-- What is in something is in a scope. -/
def Forest.Scoped : Forest → Prop
  | .nil => True
  | .cons _ o kids rest => (kids ≠ .nil → o.body.kind = .scope) ∧ kids.Scoped ∧ rest.Scoped

theorem scoped_of {f : Forest} (hu : f.Uniq)
    (h : ∀ ns n m, (opAt f (ns ++ [n]) m).isSome → ∃ o, opAt f ns n = some o ∧ o.body.kind = .scope) :
    f.Scoped := by
  induction f with
  | nil => trivial
  | cons x o kids rest ihk ihr =>
    obtain ⟨hx, huk, hur⟩ := hu
    refine ⟨?_, ihk huk ?_, ihr hur ?_⟩
    · intro hk
      cases kids with
      | nil => exact absurd rfl hk
      | cons m o' k' r' =>
        obtain ⟨o2, h1, h2⟩ := h [] x m (by simp [opAt])
        simp only [opAt, if_true, Option.some.injEq] at h1
        rw [h1]; exact h2
    · intro ns n m hm
      obtain ⟨o2, h1, h2⟩ := h (x :: ns) n m (by simpa [opAt] using hm)
      exact ⟨o2, by simpa [opAt] using h1, h2⟩
    · intro ns n m hm
      cases ns with
      | nil =>
        have hn : n ∈ rest.names := opAt_names_cons hm
        have hne : x ≠ n := fun e => hx (e ▸ hn)
        obtain ⟨o2, h1, h2⟩ := h [] n m (by simpa [opAt, hne] using hm)
        exact ⟨o2, by simpa [opAt, hne] using h1, h2⟩
      | cons s ns =>
        have hn : s ∈ rest.names := opAt_names_cons hm
        have hne : x ≠ s := fun e => hx (e ▸ hn)
        obtain ⟨o2, h1, h2⟩ := h (s :: ns) n m (by simpa [opAt, hne] using hm)
        exact ⟨o2, by simpa [opAt, hne] using h1, h2⟩

/-- The diagram and all scopes have a start and an end. -/
structure Ends (b : Board) : Prop where
  rootStart : ∃ n ∈ b.nodes, n.parent = none ∧ n.item = .start
  rootEnd : ∃ n ∈ b.nodes, n.parent = none ∧ n.item = .terminate
  scopeStart : ∀ m ∈ b.nodes, ∀ ns name o, m.item = .op ns name o → o.body.kind = .scope →
    ∃ n ∈ b.nodes, n.parent = some m.id ∧ n.item = .start
  scopeEnd : ∀ m ∈ b.nodes, ∀ ns name o, m.item = .op ns name o → o.body.kind = .scope →
    ∃ n ∈ b.nodes, n.parent = some m.id ∧ n.item = .terminate

theorem Ends.empty : Ends Board.empty := by
  refine ⟨⟨_, List.mem_cons_self .., rfl, rfl⟩, ⟨⟨1, none, .terminate⟩, by simp [Board.empty], rfl, rfl⟩, ?_, ?_⟩ <;>
  · intro m hm ns name o hi
    simp only [Board.empty, List.mem_cons, List.not_mem_nil, or_false] at hm
    rcases hm with rfl | rfl <;> cases hi

theorem fresh_uids (l : List Nat) : ∃ m : Nat, ∀ x ∈ l, x < m := by
  induction l with
  | nil => exact ⟨0, fun _ h => nomatch h⟩
  | cons a l ih =>
    obtain ⟨m, h⟩ := ih
    refine ⟨max m (a + 1), fun x hx => ?_⟩
    rcases List.mem_cons.1 hx with rfl | hx
    · omega
    · have := h x hx; omega

theorem hold_append {b b' : Board} (hs : Sound b') {l : List Node} (hl : b'.nodes = b.nodes ++ l)
    {parent : Option Uid} (h : b.canHold parent = true) :
    b'.canHold parent = true ∧ b'.space parent = b.space parent := by
  cases parent with
  | none => exact ⟨rfl, rfl⟩
  | some p =>
    have hn : b'.node p = b.node p := by
      cases hb : b.node p with
      | none => simp only [Board.canHold, hb] at h; cases h
      | some n =>
        obtain ⟨h1, h2⟩ := node_mem hb
        have := hs.node (n := n) (by rw [hl]; exact List.mem_append_left _ h1)
        rw [h2] at this
        exact this
    simp only [Board.canHold, Board.space, hn]
    exact ⟨h, trivial⟩

theorem graph_nodes_append {b b' : Board} {l : List Node} (hl : b'.nodes = b.nodes ++ l) :
    b'.graph.nodes = b.graph.nodes ++ (Board.mk l []).graph.nodes := by
  simp only [Board.graph, hl, List.filterMap_append]

theorem taken_mem {b : Board} {k : Key} (h : b.Taken k) : k ∈ b.graph.nodes.map (·.1) := by
  obtain ⟨n, hn, hk⟩ := h
  rw [graph_keys]
  exact List.mem_filterMap.2 ⟨n, hn, hk⟩

/-- One operation. -/
theorem add_one {b : Board} (hs : Sound b) (he : Ends b) {parent : Option Uid}
    (hold : b.canHold parent = true) (name : Name) (o : Op)
    (hname : (⟨b.space parent, name⟩ : Key) ∉ b.graph.nodes.map (·.1)) :
    ∃ b' l id, Edits b b' ∧ Sound b' ∧ Ends b' ∧ b'.edges = b.edges ∧ b'.nodes = b.nodes ++ l ∧
      b'.graph.nodes = b.graph.nodes ++ [(⟨b.space parent, name⟩, o)] ∧
      (o.body.kind = .scope → b'.canHold (some id) = true ∧
        b'.space (some id) = b.space parent ++ [name]) := by
  obtain ⟨m, hm⟩ := fresh_uids (b.nodes.map (·.id))
  have hid : (b.nodes.map (·.id) ++ [m, m + 1, m + 2]).Nodup := by
    rw [List.nodup_append]
    refine ⟨hs.ids, by simp, ?_⟩
    intro x hx y hy e
    have : (x : Nat) < m := hm x hx
    have e : (x : Nat) = y := e
    simp only [List.mem_cons, List.not_mem_nil, or_false] at hy
    have hy : (m : Nat) ≤ y := by
      rcases hy with rfl | rfl | rfl
      · exact Nat.le_refl _
      · exact Nat.le_add_right _ _
      · exact Nat.le_add_right _ _
    exact absurd (e ▸ this) (Nat.not_lt.2 hy)
  have hedit : Edit b (b.add parent m (m + 1) (m + 2) name o) :=
    .add parent m (m + 1) (m + 2) name o hid fun h => hname (taken_mem h)
  have hs' := hs.edit hedit
  generalize hb' : b.add parent m (m + 1) (m + 2) name o = b' at hedit hs'
  simp only [Board.add, hold, if_true] at hb'
  let n : Node := ⟨m, parent, .op (b.space parent) name o⟩
  have hn : n ∈ b'.nodes := by
    rw [← hb']
    refine List.mem_append_right _ ?_
    split <;> exact List.mem_cons_self ..
  refine ⟨b', _, m, .more (.none b) hedit, hs', ?_, by rw [← hb'], by rw [← hb'], ?_, ?_⟩
  · have sub : ∀ x ∈ b.nodes, x ∈ b'.nodes := fun x hx => by
      rw [← hb']; exact List.mem_append_left _ hx
    have new : ∀ x ∈ b'.nodes, ∀ ns nm o', x.item = .op ns nm o' → o'.body.kind = .scope →
        x ∈ b.nodes ∨ (x = n ∧ o.body.kind = .scope) := by
      intro x hx ns nm o' hi hk
      rw [← hb'] at hx
      rcases List.mem_append.1 hx with hx | hx
      · exact .inl hx
      · right
        split at hx
        · rename_i hsc
          simp only [List.mem_cons, List.not_mem_nil, or_false] at hx
          rcases hx with rfl | rfl | rfl
          · exact ⟨rfl, hsc⟩
          · cases hi
          · cases hi
        · rw [List.mem_singleton] at hx
          subst hx
          cases hi
          exact ⟨rfl, hk⟩
    have own : o.body.kind = .scope → (⟨m + 1, some m, .start⟩ : Node) ∈ b'.nodes ∧
        (⟨m + 2, some m, .terminate⟩ : Node) ∈ b'.nodes := by
      intro hk
      rw [← hb']
      simp [hk]
    refine ⟨?_, ?_, ?_, ?_⟩
    · obtain ⟨x, h1, h2⟩ := he.rootStart; exact ⟨x, sub x h1, h2⟩
    · obtain ⟨x, h1, h2⟩ := he.rootEnd; exact ⟨x, sub x h1, h2⟩
    · intro x hx ns nm o' hi hk
      rcases new x hx ns nm o' hi hk with hx | ⟨rfl, hk'⟩
      · obtain ⟨y, h1, h2⟩ := he.scopeStart x hx ns nm o' hi hk; exact ⟨y, sub y h1, h2⟩
      · exact ⟨_, (own hk').1, rfl, rfl⟩
    · intro x hx ns nm o' hi hk
      rcases new x hx ns nm o' hi hk with hx | ⟨rfl, hk'⟩
      · obtain ⟨y, h1, h2⟩ := he.scopeEnd x hx ns nm o' hi hk; exact ⟨y, sub y h1, h2⟩
      · exact ⟨_, (own hk').2, rfl, rfl⟩
  · rw [← hb', graph_nodes_append (b := b) rfl]
    congr 1
    simp only [Board.graph]
    split <;> rfl
  · intro hk
    have := hs'.node hn
    simp only [Board.canHold, Board.space, show b'.node m = some n from this, n, hk, beq_self_eq_true,
      and_self]

/-- All operations of a map of operations. -/
theorem add_all (f : Forest) : ∀ (b : Board) (parent : Option Uid), Sound b → Ends b →
    b.canHold parent = true → f.Scoped →
    ((b.graph.nodes ++ flatten (b.space parent) f).map (·.1)).Nodup →
    ∃ b' l, Edits b b' ∧ Sound b' ∧ Ends b' ∧ b'.edges = b.edges ∧ b'.nodes = b.nodes ++ l ∧
      b'.graph.nodes = b.graph.nodes ++ flatten (b.space parent) f := by
  induction f with
  | nil =>
    intro b parent hs he _ _ _
    exact ⟨b, [], .none b, hs, he, rfl, by simp, by simp [flatten]⟩
  | cons name o kids rest ihk ihr =>
    intro b parent hs he hold ⟨hsc, hk, hr⟩ hnd
    simp only [flatten] at hnd ⊢
    obtain ⟨b1, l1, e1, s1, n1, w1, a1, g1⟩ := ihr b parent hs he hold hr (by
      refine hnd.sublist (List.Sublist.map _ ?_)
      exact List.Sublist.append_left (List.sublist_append_left ..) _)
    obtain ⟨hold1, sp1⟩ := hold_append s1 a1 hold
    obtain ⟨b2, l2, id, e2, s2, n2, w2, a2, g2, c2⟩ := add_one s1 n1 hold1 name o (by
      rw [g1, sp1]
      intro hm
      rw [← List.append_assoc, List.map_append, List.nodup_append] at hnd
      exact hnd.2.2 _ hm _ (by simp) rfl)
    by_cases hkids : kids = .nil
    · subst hkids
      refine ⟨b2, l1 ++ l2, e1.trans e2, s2, n2, w2.trans w1, by rw [a2, a1, List.append_assoc], ?_⟩
      rw [g2, g1, sp1]
      simp [flatten]
    · obtain ⟨hold2, sp2⟩ := c2 (hsc hkids)
      obtain ⟨b3, l3, e3, s3, n3, w3, a3, g3⟩ := ihk b2 (some id) s2 n2 hold2 hk (by
        rw [sp2, g2, g1, sp1]
        simpa using hnd)
      refine ⟨b3, l1 ++ l2 ++ l3, (e1.trans e2).trans e3, s3, n3, (w3.trans w2).trans w1,
        by rw [a3, a2, a1]; simp, ?_⟩
      rw [g3, sp2, g2, g1, sp1]
      simp

/-- A node for every place that an edge of a diagram can be at. -/
def Exists (N : Nodes) : Id → Prop
  | .op k => ∃ o, N.get k = some o
  | .start none => True
  | .start (some k) => N.kind k = some .scope
  | .terminate ns => N.hasEnd ns = true

theorem place_exists {b : Board} (hs : Sound b) (he : Ends b) {id : Id}
    (h : Exists b.graph.nodes id) : ∃ n ∈ b.nodes, b.place n = id := by
  have scope : ∀ k o, (k, o) ∈ b.graph.nodes → ∃ m ∈ b.nodes, m.item = .op k.ns k.name o ∧
      b.node m.id = some m := by
    intro k o hm
    obtain ⟨m, h1, h2⟩ := mem_graph.1 hm
    exact ⟨m, h1, h2, hs.node h1⟩
  cases id with
  | op k =>
    obtain ⟨o, ho⟩ := h
    obtain ⟨m, h1, h2, _⟩ := scope k o (get_mem ho)
    exact ⟨m, h1, place_op h2⟩
  | start p =>
    cases p with
    | none =>
      obtain ⟨n, h1, h2, h3⟩ := he.rootStart
      exact ⟨n, h1, by simp only [Board.place, h3, h2]⟩
    | some k =>
      simp only [Exists, Nodes.kind, Option.map_eq_some_iff] at h
      obtain ⟨o, ho, hk⟩ := h
      obtain ⟨m, h1, h2, h3⟩ := scope k o (get_mem ho)
      obtain ⟨n, h4, h5, h6⟩ := he.scopeStart m h1 _ _ _ h2 hk
      exact ⟨n, h4, by simp only [Board.place, h6, h5, h3, Option.bind_some, Node.key?, h2]⟩
  | terminate ns =>
    simp only [Exists, Nodes.hasEnd, Bool.or_eq_true, beq_iff_eq, List.any_eq_true,
      Bool.and_eq_true] at h
    rcases h with rfl | ⟨⟨k, o⟩, hm, hin, hk⟩
    · obtain ⟨n, h1, h2, h3⟩ := he.rootEnd
      exact ⟨n, h1, by simp only [Board.place, h3, h2, Board.space]⟩
    · obtain ⟨m, h1, h2, h3⟩ := scope k o hm
      obtain ⟨n, h4, h5, h6⟩ := he.scopeEnd m h1 _ _ _ h2 hk
      refine ⟨n, h4, ?_⟩
      obtain ⟨mid, mp, mi⟩ := m
      simp only at h2 h3 h5
      subst h2
      simp only [Board.place, h6, h5, Board.space, h3]
      rw [← hin]; rfl

end Verif.Editor
