import Verif.Editor.Sweep
/-
Every edit keeps a diagram sound.
-/
namespace Verif.Editor

theorem node_mem {b : Board} {x : Uid} {n : Node} (h : b.node x = some n) : n ∈ b.nodes ∧ n.id = x := by
  refine ⟨List.mem_of_find?_eq_some h, ?_⟩
  have := List.find?_some h
  simpa using this

theorem id_inj {nodes : List Node} (h : (nodes.map (·.id)).Nodup) {a c : Node} (ha : a ∈ nodes)
    (hc : c ∈ nodes) (e : a.id = c.id) : a = c := by
  induction nodes with
  | nil => cases ha
  | cons n nodes ih =>
    simp only [List.map_cons, List.nodup_cons, List.mem_map, not_exists, not_and] at h
    rcases List.mem_cons.1 ha with ea | ha
    · rcases List.mem_cons.1 hc with ec | hc
      · rw [ea, ec]
      · exact absurd (ea ▸ e.symm) (h.1 _ hc)
    · rcases List.mem_cons.1 hc with ec | hc
      · exact absurd (ec ▸ e) (h.1 _ ha)
      · exact ih h.2 ha hc

theorem Sound.node {b : Board} (h : Sound b) {n : Node} (hn : n ∈ b.nodes) : b.node n.id = some n := by
  cases hf : b.node n.id with
  | none =>
    have := List.find?_eq_none.1 hf n hn
    simp at this
  | some m =>
    obtain ⟨h1, h2⟩ := node_mem hf
    rw [id_inj h.ids h1 hn h2]

/-- Two items with the same handles, of which operations are in the same namespace. -/
def Item.Like : Item → Item → Prop
  | .op ns _ o, .op ns' _ o' => ns = ns' ∧ o.body.kind = o'.body.kind
  | .start, .start => True
  | .terminate, .terminate => True
  | _, _ => False

theorem Item.Like.refl (i : Item) : i.Like i := by cases i <;> simp [Item.Like]

theorem Item.Like.same {i j : Item} (h : i.Like j) :
    i.outputs = j.outputs ∧ i.takes = j.takes ∧ i.hasHandle = j.hasHandle ∧ i.single = j.single ∧
      i.isSect = j.isSect := by
  cases i <;> cases j <;> simp only [Item.Like] at h <;> try trivial
  obtain ⟨rfl, h⟩ := h
  refine ⟨?_, ?_, ?_, ?_, ?_⟩
  · simp only [Item.outputs, h]
  · funext t; simp only [Item.takes, h]
  · funext t; cases t <;> simp only [Item.hasHandle, h]
  · funext t; simp only [Item.single, h]
  · simp only [Item.isSect, h]

theorem Item.Like.valid {s s' t t' : Item} {h : Handle} (hs : s.Like s') (ht : t.Like t') :
    validTypes s h t = validTypes s' h t' := by
  simp only [validTypes, hs.same.1, ht.same.2.1]

/-- What `modify` makes of a node. -/
def up (id : Uid) (f : List Name → Name → Op → Item) (n : Node) : Node :=
  if n.id = id then
    match n.item with
    | .op ns name o => { n with item := f ns name o }
    | _ => n
  else n

theorem modify_nodes (b : Board) (id : Uid) (f : List Name → Name → Op → Item) :
    (b.modify id f).nodes = b.nodes.map (up id f) := rfl

theorem up_id (id : Uid) (f : List Name → Name → Op → Item) (n : Node) : (up id f n).id = n.id := by
  simp only [up]; split
  · split <;> rfl
  · rfl

theorem up_parent (id : Uid) (f : List Name → Name → Op → Item) (n : Node) :
    (up id f n).parent = n.parent := by
  simp only [up]; split
  · split <;> rfl
  · rfl

theorem up_like {f : List Name → Name → Op → Item} (hf : ∀ ns name o, (f ns name o).Like (.op ns name o))
    (id : Uid) (n : Node) : (up id f n).item.Like n.item := by
  simp only [up]; split
  · split
    · rename_i h; rw [h]; exact hf _ _ _
    · exact .refl _
  · exact .refl _

theorem up_other {f : List Name → Name → Op → Item} {id : Uid} {n : Node} (h : n.id ≠ id) :
    up id f n = n := by simp only [up, if_neg h]

theorem Sound.modify {b : Board} (h : Sound b) {id : Uid} {f : List Name → Name → Op → Item}
    (hf : ∀ ns name o, (f ns name o).Like (.op ns name o))
    (hk : ((b.nodes.map (up id f)).filterMap Node.key?).Nodup)
    (hc : (∀ n ∈ b.nodes, n.parent ≠ some id) ∨
      ∀ ns name o, ∃ o', f ns name o = .op ns name o') : Sound (b.modify id f) := by
  refine ⟨?_, hk, ?_, ?_, ?_, ?_, h.wires, ?_⟩
  · rw [modify_nodes, List.map_map]
    have : (fun x : Node => x.id) ∘ up id f = fun x => x.id := by
      funext n; exact up_id id f n
    rw [this]; exact h.ids
  · intro n' hn' p hp
    rw [modify_nodes] at hn'
    obtain ⟨n, hn, rfl⟩ := List.mem_map.1 hn'
    rw [up_parent] at hp
    obtain ⟨m, hm, e1, ns, name, o, e2, e3, e4⟩ := h.inside n hn p hp
    have hl := up_like hf id m
    rw [e2] at hl
    have hname : ∃ o', (up id f m).item = .op ns name o' ∧ o'.body.kind = .scope := by
      rcases hc with hc | hc
      · have : m.id ≠ id := by
          intro e; exact hc n hn (by rw [hp, ← e1, e])
        rw [up_other this]
        exact ⟨o, e2, e3⟩
      · by_cases hx : m.id = id
        · obtain ⟨o', ho'⟩ := hc ns name o
          have hu : (up id f m).item = .op ns name o' := by
            simp only [up, if_pos hx, e2, ho']
          rw [hu] at hl
          exact ⟨o', hu, hl.2.trans e3⟩
        · rw [up_other hx]; exact ⟨o, e2, e3⟩
    obtain ⟨o', q1, q2⟩ := hname
    refine ⟨up id f m, List.mem_map.2 ⟨m, hm, rfl⟩, (up_id ..).trans e1, ns, name, o', q1, q2, ?_⟩
    intro ns' name' o'' hx
    have hl := up_like hf id n
    rw [hx] at hl
    cases hi : n.item with
    | op ns2 name2 o2 =>
      rw [hi] at hl
      rw [hl.1]
      exact e4 _ _ _ hi
    | start => rw [hi] at hl; exact hl.elim
    | terminate => rw [hi] at hl; exact hl.elim
  · intro n' hn' hp ns name o hx
    rw [modify_nodes] at hn'
    obtain ⟨n, hn, rfl⟩ := List.mem_map.1 hn'
    rw [up_parent] at hp
    have hl := up_like hf id n
    rw [hx] at hl
    cases hi : n.item with
    | op ns2 name2 o2 =>
      rw [hi] at hl
      rw [hl.1]
      exact h.top n hn hp _ _ _ hi
    | start => rw [hi] at hl; exact hl.elim
    | terminate => rw [hi] at hl; exact hl.elim
  · rw [modify_nodes, List.pairwise_map]
    have hst : ∀ n : Node, (up id f n).item = .start → n.item = .start := by
      intro n hx
      have hl := up_like hf id n
      rw [hx] at hl
      cases hi : n.item with
      | op ns2 name2 o2 => rw [hi] at hl; exact hl.elim
      | start => rfl
      | terminate => rw [hi] at hl; exact hl.elim
    refine h.starts.imp ?_
    intro n n' hx h1 h2
    rw [up_parent, up_parent]
    exact hx (hst n h1) (hst n' h2)
  · intro e he
    obtain ⟨s, hs, t, ht, e1, e2, e3, e4, e5⟩ := h.ends e he
    refine ⟨up id f s, List.mem_map.2 ⟨s, hs, rfl⟩, up id f t, List.mem_map.2 ⟨t, ht, rfl⟩,
      (up_id ..).trans e1, (up_id ..).trans e2, ?_, ?_, ?_⟩
    · rw [(up_like hf id s).same.2.2.1]; exact e3
    · rw [(up_like hf id s).valid (up_like hf id t)]; exact e4
    · rw [(up_like hf id t).same.2.2.2.2]; exact e5
  · refine h.single.imp ?_
    intro e e' hx h1 h2 s' hs' hid
    rw [modify_nodes] at hs'
    obtain ⟨s, hs, rfl⟩ := List.mem_map.1 hs'
    rw [(up_like hf id s).same.2.2.2.1]
    exact hx h1 h2 s hs ((up_id ..).symm.trans hid)

theorem Sound.setOp {b : Board} (h : Sound b) (id : Uid) (o : Op) : Sound (b.setOp id o) := by
  refine h.modify ?_ ?_ (.inr fun ns name o' => ⟨_, rfl⟩)
  · intro ns name o'
    refine ⟨rfl, ?_⟩
    split
    · assumption
    · rfl
  · rw [List.filterMap_map]
    have : (Node.key? ∘ up id fun ns name o' =>
        Item.op ns name (if o.body.kind = o'.body.kind then o else o')) = Node.key? := by
      funext n
      simp only [Function.comp, up]
      split
      · split
        · rename_i hi; simp only [Node.key?, hi]
        · rfl
      · rfl
    rw [this]
    exact h.keys

theorem keys_nodup_rename {id : Uid} {name : Name} {nodes : List Node}
    (hids : (nodes.map (·.id)).Nodup) (hk : (nodes.filterMap Node.key?).Nodup)
    (hn : ∀ n ∈ nodes, n.id = id → ∀ ns name' o, n.item = .op ns name' o →
      ∀ m ∈ nodes, m.key? ≠ some ⟨ns, name⟩) :
    ((nodes.map (up id fun ns _ o => .op ns name o)).filterMap Node.key?).Nodup := by
  by_cases hex : ∃ n ∈ nodes, n.id = id
  · obtain ⟨n, hm, he⟩ := hex
    obtain ⟨l1, l2, rfl⟩ := List.append_of_mem hm
    have hsame : ∀ l : List Node, (∀ m ∈ l, m.id ≠ id) →
        l.map (up id fun ns _ o => .op ns name o) = l := by
      intro l hl
      conv => rhs; rw [← List.map_id l]
      exact List.map_congr_left fun m hm => up_other (hl m hm)
    have hd := hids
    rw [List.map_append, List.map_cons, List.nodup_append] at hd
    obtain ⟨_, hd2, hd3⟩ := hd
    rw [List.nodup_cons] at hd2
    have h1 : ∀ m ∈ l1, m.id ≠ id := by
      intro m hm' e
      exact hd3 m.id (List.mem_map.2 ⟨m, hm', rfl⟩) n.id (List.mem_cons_self ..) (e.trans he.symm)
    have h2 : ∀ m ∈ l2, m.id ≠ id := by
      intro m hm' e
      exact hd2.1 (List.mem_map.2 ⟨m, hm', e.trans he.symm⟩)
    rw [List.map_append, List.map_cons, hsame l1 h1, hsame l2 h2]
    cases hi : n.item with
    | op ns name' o =>
      have hnew := hn n hm he ns name' o hi
      have hu : Node.key? (up id (fun ns _ o => .op ns name o) n) = some ⟨ns, name⟩ := by
        simp only [up, if_pos he, hi, Node.key?]
      have ho : Node.key? n = some ⟨ns, name'⟩ := by simp only [Node.key?, hi]
      rw [List.filterMap_append, List.filterMap_cons_some ho, List.nodup_append, List.nodup_cons] at hk
      rw [List.filterMap_append, List.filterMap_cons_some hu, List.nodup_append, List.nodup_cons]
      refine ⟨hk.1, ⟨?_, hk.2.1.2⟩, ?_⟩
      · intro hx
        obtain ⟨m, hm', e⟩ := List.mem_filterMap.1 hx
        exact hnew m (List.mem_append_right _ (List.mem_cons_of_mem _ hm')) e
      · intro a ha c hc
        rcases List.mem_cons.1 hc with rfl | hc
        · rintro rfl
          obtain ⟨m, hm', e⟩ := List.mem_filterMap.1 ha
          exact hnew m (List.mem_append_left _ hm') e
        · exact hk.2.2 a ha c (List.mem_cons_of_mem _ hc)
    | start =>
      have : up id (fun ns _ o => .op ns name o) n = n := by simp only [up, if_pos he, hi]
      rw [this]; exact hk
    | terminate =>
      have : up id (fun ns _ o => .op ns name o) n = n := by simp only [up, if_pos he, hi]
      rw [this]; exact hk
  · have : nodes.map (up id fun ns _ o => .op ns name o) = nodes := by
      conv => rhs; rw [← List.map_id nodes]
      exact List.map_congr_left fun m hm => up_other fun e => hex ⟨m, hm, e⟩
    rw [this]; exact hk

theorem Sound.rename {b : Board} (h : Sound b) {id : Uid} {name : Name}
    (hleaf : ∀ n ∈ b.nodes, n.parent ≠ some id)
    (hname : ∀ n ∈ b.nodes, n.id = id → ∀ ns name' o, n.item = .op ns name' o →
      ¬ b.Taken ⟨ns, name⟩) : Sound (b.rename id name) := by
  refine h.modify (fun ns name' o => ⟨rfl, rfl⟩) ?_ (.inl hleaf)
  exact keys_nodup_rename h.ids h.keys fun n hn e ns name' o hi m hm hk =>
    hname n hn e ns name' o hi ⟨m, hm, hk⟩

theorem mem_remove_nodes {b : Board} {ids : List Uid} {n : Node} :
    n ∈ (b.remove ids).nodes ↔ n ∈ b.nodes ∧ ¬ Within b ids n.id := by
  simp only [Board.remove, List.mem_filter, Bool.not_eq_true', List.contains_eq_mem,
    decide_eq_false_iff_not, removed_iff]

theorem mem_remove_edges {b : Board} {ids : List Uid} {e : Wire} :
    e ∈ (b.remove ids).edges ↔ e ∈ b.edges ∧ ¬ Within b ids e.source ∧ ¬ Within b ids e.target := by
  simp only [Board.remove, List.mem_filter, Bool.not_eq_true', Bool.or_eq_false_iff,
    List.contains_eq_mem, decide_eq_false_iff_not, removed_iff]

theorem Sound.remove {b : Board} (h : Sound b) (ids : List Uid) : Sound (b.remove ids) := by
  have hsub : (b.remove ids).nodes.Sublist b.nodes := List.filter_sublist
  refine ⟨h.ids.sublist (hsub.map _), h.keys.sublist (hsub.filterMap _), ?_, ?_, h.starts.sublist hsub, ?_,
    h.wires.sublist (List.filter_sublist.map _), ?_⟩
  · intro n hn p hp
    obtain ⟨h1, h2⟩ := mem_remove_nodes.1 hn
    obtain ⟨m, hm, e, hx⟩ := h.inside n h1 p hp
    exact ⟨m, mem_remove_nodes.2 ⟨hm, fun hw => h2 (.inside h1 hp (e ▸ hw))⟩, e, hx⟩
  · intro n hn
    exact h.top n (mem_remove_nodes.1 hn).1
  · intro e he
    obtain ⟨h1, h2, h3⟩ := mem_remove_edges.1 he
    obtain ⟨s, hs, t, ht, e1, e2, hx⟩ := h.ends e h1
    exact ⟨s, mem_remove_nodes.2 ⟨hs, e1 ▸ h2⟩, t, mem_remove_nodes.2 ⟨ht, e2 ▸ h3⟩, e1, e2, hx⟩
  · refine (h.single.sublist List.filter_sublist).imp ?_
    intro e e' hx h1 h2 s hs
    exact hx h1 h2 s (mem_remove_nodes.1 hs).1

theorem Sound.removeEdge {b : Board} (h : Sound b) (id : Uid) : Sound (b.removeEdge id) := by
  refine ⟨h.ids, h.keys, h.inside, h.top, h.starts, ?_, h.wires.sublist (List.filter_sublist.map _),
    h.single.sublist List.filter_sublist⟩
  intro e he
  exact h.ends e (List.mem_filter.1 he).1

theorem fresh_type (t : EType) : t.fresh.type = t := by cases t <;> rfl

/-- A new edge has the default data of its type. -/
theorem tryCreate_fresh {b : Board} {others : List Wire} {id source : Uid} {hd : Handle} {target : Uid}
    {w : Wire} (h : b.tryCreate others id source hd target = some w) :
    w.kind = w.kind.type.fresh ∧ ∀ t, b.node target = some t → w.slot = t.item.freshSlot := by
  simp only [Board.tryCreate] at h
  split at h
  · rename_i s t hs ht
    split at h
    · split at h
      · cases h
      · rename_i ty tys hv
        split at h
        · cases h
        · cases h
          refine ⟨?_, ?_⟩
          · cases ty <;> rfl
          · intro t' h'; rw [ht] at h'; cases h'; rfl
    · cases h
  · cases h

/-- What a created edge is. -/
theorem tryCreate_some {b : Board} {others : List Wire} {id source : Uid} {hd : Handle} {target : Uid}
    {w : Wire} (h : b.tryCreate others id source hd target = some w) :
    w.id = id ∧ w.source = source ∧ w.handle = hd ∧ w.target = target ∧
    ∃ s ∈ b.nodes, ∃ t ∈ b.nodes, s.id = source ∧ t.id = target ∧
      s.item.hasHandle hd = true ∧ w.kind.type ∈ validTypes s.item hd t.item ∧
      (w.slot = none ∨ t.item.isSect = true) ∧
      (s.item.single hd = true → ∀ e ∈ others, ¬ (e.source = source ∧ e.handle = hd)) := by
  simp only [Board.tryCreate] at h
  split at h
  · rename_i s t hs ht
    split at h
    · rename_i hh
      split at h
      · cases h
      · rename_i ty tys hv
        split at h
        · cases h
        · rename_i hc
          cases h
          obtain ⟨h1, h2⟩ := node_mem hs
          obtain ⟨h3, h4⟩ := node_mem ht
          refine ⟨rfl, rfl, rfl, rfl, s, h1, t, h3, h2, h4, hh, ?_, ?_, ?_⟩
          · rw [hv]; simp only [fresh_type]; exact List.mem_cons_self ..
          · simp only [Item.freshSlot]
            split
            · rename_i hsec; exact .inr hsec
            · exact .inl rfl
          · intro hsing e he hx
            refine hc ?_
            rw [hsing, Bool.true_and, List.any_eq_true]
            exact ⟨e, he, by simp [hx.1, hx.2]⟩
    · cases h
  · cases h

theorem Sound.connect {b : Board} (h : Sound b) {id source : Uid} {hd : Handle} {target : Uid}
    (hid : id ∉ b.edges.map (·.id)) : Sound (b.connect id source hd target) := by
  simp only [Board.connect]
  split
  · exact h
  · rename_i w hw
    split
    · exact h
    · obtain ⟨h1, h2, h3, h4, s, hs, t, ht, e1, e2, e3, e4, e6, e5⟩ := tryCreate_some hw
      refine ⟨h.ids, h.keys, h.inside, h.top, h.starts, ?_, ?_, ?_⟩
      · intro e he
        rcases List.mem_append.1 he with he | he
        · exact h.ends e he
        · rw [List.mem_singleton.1 he]
          exact ⟨s, hs, t, ht, e1.trans h2.symm, e2.trans h4.symm, by rw [h3]; exact e3,
            by rw [h3]; exact e4, e6⟩
      · rw [List.map_append, List.nodup_append]
        refine ⟨h.wires, by simp, ?_⟩
        intro x hx y hy
        simp only [List.map_cons, List.map_nil, List.mem_singleton] at hy
        rintro rfl
        rw [hy, h1] at hx
        exact hid hx
      · rw [List.pairwise_append]
        refine ⟨h.single, List.pairwise_singleton .., ?_⟩
        intro e he w' hw' q1 q2 s' hs' q3
        rw [List.mem_singleton.1 hw'] at q1 q2
        have : s' = s := id_inj h.ids hs' hs (by rw [q3, q1, h2, e1])
        subst this
        rw [q2, h3]
        cases hsing : s'.item.single hd with
        | false => rfl
        | true => exact absurd ⟨q1.trans h2, q2.trans h3⟩ (e5 hsing e he)

theorem Sound.reconnect {b : Board} (h : Sound b) (id source : Uid) (hd : Handle) (target : Uid) :
    Sound (b.reconnect id source hd target) := by
  simp only [Board.reconnect]
  split
  · exact h
  · rename_i w hw
    obtain ⟨h1, h2, h3, h4, s, hs, t, ht, e1, e2, e3, e4, e6, e5⟩ := tryCreate_some hw
    have hother : ∀ e ∈ b.edges, e.id ≠ id → s.item.single hd = true →
        ¬ (e.source = source ∧ e.handle = hd) := by
      intro e he hne hsing
      exact e5 hsing e (List.mem_filter.2 ⟨he, by simpa using hne⟩)
    refine ⟨h.ids, h.keys, h.inside, h.top, h.starts, ?_, ?_, ?_⟩
    · intro e' he'
      obtain ⟨e, he, rfl⟩ := List.mem_map.1 he'
      split
      · exact ⟨s, hs, t, ht, e1.trans h2.symm, e2.trans h4.symm, by rw [h3]; exact e3,
          by rw [h3]; exact e4, e6⟩
      · exact h.ends e he
    · rw [List.map_map]
      have : ((fun x : Wire => x.id) ∘ fun e => if e.id = id then w else e) = fun x => x.id := by
        funext e
        simp only [Function.comp]
        split
        · rename_i hx; rw [h1, hx]
        · rfl
      rw [this]; exact h.wires
    · rw [List.pairwise_map]
      have hw' : b.edges.Pairwise fun e e' => e.id ≠ e'.id := List.pairwise_map.1 h.wires
      refine (h.single.and hw').imp_of_mem ?_
      intro e e' he he' hx
      obtain ⟨hx, hne⟩ := hx
      by_cases c1 : e.id = id
      · have c2 : e'.id ≠ id := fun c => hne (c1.trans c.symm)
        rw [if_pos c1, if_neg c2]
        intro q1 q2 s' hs' q3
        have : s' = s := id_inj h.ids hs' hs (by rw [q3, h2, e1])
        subst this
        rw [h3]
        cases hsing : s'.item.single hd with
        | false => rfl
        | true => exact absurd ⟨q1.symm.trans h2, q2.symm.trans h3⟩ (hother e' he' c2 hsing)
      · rw [if_neg c1]
        by_cases c2 : e'.id = id
        · rw [if_pos c2]
          intro q1 q2 s' hs' q3
          have : s' = s := id_inj h.ids hs' hs (by rw [q3, q1, h2, e1])
          subst this
          rw [q2, h3]
          cases hsing : s'.item.single hd with
          | false => rfl
          | true => exact absurd ⟨q1.trans h2, q2.trans h3⟩ (hother e he c1 hsing)
        · rw [if_neg c2]; exact hx

/-- What `setEdge` makes of an edge. -/
def Board.touch (b : Board) (id : Uid) (kind : EdgeKind) (slot : Option Name) (e : Wire) : Wire :=
  if e.id = id then
    match b.node e.source, b.node e.target with
    | some s, some t =>
      if (validTypes s.item e.handle t.item).contains kind.type then
        { e with kind := kind, slot := if t.item.isSect then slot else none }
      else e
    | _, _ => e
  else e

theorem touch_eq (b : Board) (id : Uid) (kind : EdgeKind) (slot : Option Name) (e : Wire) :
    b.touch id kind slot e = e ∨ ∃ s t, b.node e.source = some s ∧ b.node e.target = some t ∧
      kind.type ∈ validTypes s.item e.handle t.item ∧
      b.touch id kind slot e = { e with kind := kind, slot := if t.item.isSect then slot else none } := by
  simp only [Board.touch]
  split
  · split
    · rename_i s t hs ht
      split
      · rename_i hc
        exact .inr ⟨s, t, hs, ht, by simpa using hc, rfl⟩
      · exact .inl rfl
    · exact .inl rfl
  · exact .inl rfl

theorem Sound.setEdge {b : Board} (h : Sound b) (id : Uid) (kind : EdgeKind) (slot : Option Name) :
    Sound (b.setEdge id kind slot) := by
  have hedges : (b.setEdge id kind slot).edges = b.edges.map (b.touch id kind slot) := rfl
  have hfix : ∀ e, (b.touch id kind slot e).id = e.id ∧ (b.touch id kind slot e).source = e.source ∧
      (b.touch id kind slot e).handle = e.handle ∧ (b.touch id kind slot e).target = e.target := by
    intro e
    rcases touch_eq b id kind slot e with hx | ⟨_, _, _, _, _, hx⟩ <;> rw [hx] <;>
      exact ⟨rfl, rfl, rfl, rfl⟩
  refine ⟨h.ids, h.keys, h.inside, h.top, h.starts, ?_, ?_, ?_⟩
  · intro e' he'
    rw [hedges] at he'
    obtain ⟨e, he, rfl⟩ := List.mem_map.1 he'
    rcases touch_eq b id kind slot e with hx | ⟨s', t', hs', ht', hv, hx⟩
    · rw [hx]; exact h.ends e he
    · obtain ⟨s, hs, t, ht, e1, e2, e3, _⟩ := h.ends e he
      rw [hx]
      rw [← e1, h.node hs] at hs'
      rw [← e2, h.node ht] at ht'
      cases hs'; cases ht'
      refine ⟨_, hs, _, ht, e1, e2, e3, hv, ?_⟩
      simp only
      split
      · rename_i hsec; exact .inr hsec
      · exact .inl rfl
  · rw [hedges, List.map_map]
    have : ((fun x : Wire => x.id) ∘ b.touch id kind slot) = fun x => x.id := by
      funext e; exact (hfix e).1
    rw [this]; exact h.wires
  · rw [hedges, List.pairwise_map]
    refine h.single.imp ?_
    intro e e' hx
    rw [(hfix e).2.1, (hfix e').2.1, (hfix e).2.2.1, (hfix e').2.2.1]
    exact hx

/-- A field keeps the ends of an edge, and what the ends allow. -/
theorem Wire.field_ok (s t : Item) (f : Field) (w : Wire)
    (hv : w.kind.type ∈ validTypes s w.handle t) (hs : w.slot = none ∨ t.isSect = true) :
    (w.field s t f).id = w.id ∧ (w.field s t f).source = w.source ∧
      (w.field s t f).handle = w.handle ∧ (w.field s t f).target = w.target ∧
      (w.field s t f).kind.type ∈ validTypes s w.handle t ∧
      ((w.field s t f).slot = none ∨ t.isSect = true) := by
  obtain ⟨id, src, hd, tgt, kind, slot⟩ := w
  simp only at hv hs
  cases f with
  | type ty =>
    simp only [Wire.field]
    split
    · rename_i hc
      simp only [Bool.and_eq_true, List.contains_iff_mem] at hc
      exact ⟨rfl, rfl, rfl, rfl, by rw [fresh_type]; exact hc.1, .inl rfl⟩
    · exact ⟨rfl, rfl, rfl, rfl, hv, hs⟩
  | input x =>
    simp only [Wire.field]
    split
    · rename_i hc
      simp only [Bool.and_eq_true] at hc
      exact ⟨rfl, rfl, rfl, rfl, hv, .inr hc.1⟩
    · exact ⟨rfl, rfl, rfl, rfl, hv, hs⟩
  | sectionBuffer x =>
    simp only [Wire.field]
    split
    · rename_i hc
      simp only [Bool.and_eq_true] at hc
      exact ⟨rfl, rfl, rfl, rfl, hv, .inr hc.1⟩
    · exact ⟨rfl, rfl, rfl, rfl, hv, hs⟩
  | unzip i => exact ⟨rfl, rfl, rfl, rfl, hv, hs⟩
  | fetch c =>
    simp only [Wire.field]
    split
    · cases kind <;> simp only [EdgeKind.type] at hv <;>
        first
        | exact ⟨rfl, rfl, rfl, rfl, hv, hs⟩
        | (simp only; split <;> exact ⟨rfl, rfl, rfl, rfl, hv, hs⟩)
    · exact ⟨rfl, rfl, rfl, rfl, hv, hs⟩
  | _ =>
    cases kind <;> simp only [EdgeKind.type] at hv <;> simp only [Wire.field] <;>
      first
      | exact ⟨trivial, trivial, trivial, trivial, hv, hs⟩
      | (split <;> exact ⟨rfl, rfl, rfl, rfl, hv, hs⟩)

/-- What is entered in a field is one way to give an edge data. -/
theorem Sound.field_eq {b : Board} (h : Sound b) (id : Uid) (f : Field) :
    ∃ kind slot, b.field id f = b.setEdge id kind slot := by
  by_cases hx : ∃ w ∈ b.edges, w.id = id
  · obtain ⟨w, hw, rfl⟩ := hx
    obtain ⟨s, hs, t, ht, e1, e2, e3, e4, e5⟩ := h.ends w hw
    obtain ⟨q1, q2, q3, q4, q5, q6⟩ := Wire.field_ok s.item t.item f w e4 e5
    refine ⟨(w.field s.item t.item f).kind, (w.field s.item t.item f).slot, ?_⟩
    simp only [Board.field, Board.setEdge]
    congr 1
    refine List.map_congr_left ?_
    intro e he
    by_cases hi : e.id = w.id
    · have : e = w := by
        have hn := h.wires
        obtain ⟨i, hi', rfl⟩ := List.mem_iff_getElem.1 he
        obtain ⟨j, hj', rfl⟩ := List.mem_iff_getElem.1 hw
        have := (List.getElem_inj (i := i) (j := j) (h₀ := by simpa using hi')
          (h₁ := by simpa using hj') hn).1 (by simpa using hi)
        subst this; rfl
      subst this
      rw [if_pos rfl, if_pos rfl, ← e1, ← e2, h.node hs, h.node ht]
      simp only [List.contains_iff_mem, q5, if_true]
      have hslot : (if t.item.isSect then (e.field s.item t.item f).slot else none) =
          (e.field s.item t.item f).slot := by
        split
        · rfl
        · rename_i hc
          rcases q6 with q6 | q6
          · exact q6.symm
          · exact absurd q6 hc
      rw [hslot]
      cases hf : e.field s.item t.item f with
      | mk a c d g k l =>
        rw [hf] at q1 q2 q3 q4
        simp only at q1 q2 q3 q4
        subst q1 q2 q3 q4
        simp only [e1, e2]
    · rw [if_neg hi, if_neg hi]
  · refine ⟨.default, none, ?_⟩
    simp only [Board.field, Board.setEdge]
    congr 1
    refine List.map_congr_left ?_
    intro e he
    have hi : e.id ≠ id := fun hi => hx ⟨e, he, hi⟩
    rw [if_neg hi, if_neg hi]

theorem Sound.field {b : Board} (h : Sound b) (id : Uid) (f : Field) : Sound (b.field id f) := by
  obtain ⟨kind, slot, hx⟩ := h.field_eq id f
  rw [hx]
  exact h.setEdge id kind slot

theorem Sound.add {b : Board} (h : Sound b) {parent : Option Uid} {id i1 i2 : Uid} {name : Name}
    {o : Op} (hid : (b.nodes.map (·.id) ++ [id, i1, i2]).Nodup)
    (hname : ¬ b.Taken ⟨b.space parent, name⟩) : Sound (b.add parent id i1 i2 name o) := by
  unfold Board.add
  split
  · rename_i hold
    simp only
    generalize hN : (⟨id, parent, .op (b.space parent) name o⟩ : Node) = N
    generalize hnew : (if o.body.kind = .scope then
      [N, ⟨i1, some id, .start⟩, ⟨i2, some id, .terminate⟩] else [N]) = new
    have hids : new.map (·.id) = [id, i1, i2] ∨ new.map (·.id) = [id] := by
      rw [← hnew, ← hN]; split
      · exact .inl rfl
      · exact .inr rfl
    have hkeys : new.filterMap Node.key? = [⟨b.space parent, name⟩] := by
      rw [← hnew, ← hN]; split <;> rfl
    have hNmem : N ∈ new := by rw [← hnew]; split <;> exact List.mem_cons_self ..
    have hcase : ∀ n ∈ new, n = N ∨ (o.body.kind = .scope ∧ n.parent = some id ∧
        ∀ ns name o, n.item ≠ .op ns name o) := by
      intro n hn
      rw [← hnew] at hn
      split at hn
      · rename_i hs
        rcases List.mem_cons.1 hn with rfl | hn
        · exact .inl rfl
        · rcases List.mem_cons.1 hn with rfl | hn
          · exact .inr ⟨hs, rfl, by simp⟩
          · rw [List.mem_singleton.1 hn]
            exact .inr ⟨hs, rfl, by simp⟩
      · exact .inl (List.mem_singleton.1 hn)
    have hfresh : ∀ n ∈ new, n.id ∉ b.nodes.map (·.id) := by
      intro n hn hx
      rw [List.nodup_append] at hid
      have : n.id ∈ [id, i1, i2] := by
        have hm : n.id ∈ new.map (·.id) := List.mem_map.2 ⟨n, hn, rfl⟩
        rcases hids with e | e <;> rw [e] at hm
        · exact hm
        · rw [List.mem_singleton.1 hm]; exact List.mem_cons_self ..
      exact hid.2.2 _ hx _ this rfl
    refine ⟨?_, ?_, ?_, ?_, ?_, ?_, h.wires, ?_⟩
    · rw [List.map_append]
      rcases hids with e | e
      · rw [e]; exact hid
      · rw [e]
        refine hid.sublist ((List.Sublist.refl _).append ?_)
        exact .cons_cons _ (List.nil_sublist _)
    · rw [List.filterMap_append, hkeys, List.nodup_append]
      refine ⟨h.keys, by simp, ?_⟩
      intro x hx y hy
      rw [List.mem_singleton.1 hy]
      rintro rfl
      obtain ⟨m, hm, e⟩ := List.mem_filterMap.1 hx
      exact hname ⟨m, hm, e⟩
    · intro n hn p hp
      rcases List.mem_append.1 hn with hn | hn
      · obtain ⟨m, hm, hx⟩ := h.inside n hn p hp
        exact ⟨m, List.mem_append_left _ hm, hx⟩
      · rcases hcase n hn with rfl | ⟨q1, q2, q3⟩
        · rw [← hN] at hp
          simp only at hp
          subst hp
          simp only [Board.canHold] at hold
          split at hold
          · rename_i x y ns' name' o' hb
            obtain ⟨m1, m2⟩ := node_mem hb
            refine ⟨_, List.mem_append_left _ m1, m2, ns', name', o', rfl, by simpa using hold, ?_⟩
            intro ns2 name2 o2 hx
            rw [← hN] at hx
            cases hx
            simp only [Board.space, hb]
          · cases hold
        · rw [q2] at hp
          cases hp
          refine ⟨N, List.mem_append_right _ hNmem, by rw [← hN], b.space parent, name, o,
            by rw [← hN], q1, ?_⟩
          intro ns' name' o' hx
          exact absurd hx (q3 _ _ _)
    · intro n hn hp ns' name' o' hx
      rcases List.mem_append.1 hn with hn | hn
      · exact h.top n hn hp _ _ _ hx
      · rcases hcase n hn with rfl | ⟨q1, q2, q3⟩
        · rw [← hN] at hp hx
          simp only at hp
          subst hp
          cases hx
          rfl
        · exact absurd hx (q3 _ _ _)
    · rw [List.pairwise_append]
      have hns : N.item ≠ .start := by rw [← hN]; simp
      refine ⟨h.starts, ?_, ?_⟩
      · rw [← hnew]
        split
        · simp [hns]
        · exact List.pairwise_singleton ..
      · intro n hn n' hn' _ h2 hp
        rcases hcase n' hn' with rfl | ⟨_, q2, _⟩
        · exact hns h2
        · rw [q2] at hp
          obtain ⟨m, hm, e, _⟩ := h.inside n hn id hp
          have : N.id = id := by rw [← hN]
          exact hfresh N hNmem (List.mem_map.2 ⟨m, hm, e.trans this.symm⟩)
    · intro e he
      obtain ⟨s, hs, t, ht, hx⟩ := h.ends e he
      exact ⟨s, List.mem_append_left _ hs, t, List.mem_append_left _ ht, hx⟩
    · refine h.single.imp_of_mem ?_
      intro e e' he _ hx q1 q2 s hs q3
      rcases List.mem_append.1 hs with hs | hs
      · exact hx q1 q2 s hs q3
      · obtain ⟨s', hs', _, _, e1, _⟩ := h.ends e he
        exact absurd (List.mem_map.2 ⟨s', hs', e1.trans q3.symm⟩) (hfresh s hs)
  · exact h

theorem Sound.empty : Sound Board.empty := by
  refine ⟨by decide, by decide, ?_, ?_, by simp [Board.empty], ?_, by decide, .nil⟩
  · intro n hn p hp
    simp only [Board.empty, List.mem_cons, List.not_mem_nil, or_false] at hn
    rcases hn with rfl | rfl <;> cases hp
  · intro n hn _ ns name o hx
    simp only [Board.empty, List.mem_cons, List.not_mem_nil, or_false] at hn
    rcases hn with rfl | rfl <;> cases hx
  · intro e he; cases he

theorem Sound.edit {b c : Board} (h : Sound b) (he : Edit b c) : Sound c := by
  cases he with
  | add parent id i1 i2 name o hid hname => exact h.add hid hname
  | setOp id o => exact h.setOp id o
  | rename id name hleaf hname => exact h.rename hleaf hname
  | remove ids => exact h.remove ids
  | connect id source hd target hid => exact h.connect hid
  | reconnect id source hd target => exact h.reconnect ..
  | field id f => exact h.field ..
  | removeEdge id => exact h.removeEdge id

end Verif.Editor
