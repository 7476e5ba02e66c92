import Verif.Editor.EditLemmas
import Verif.Editor.Total
import Verif.Editor.DrawProps
/-
C122: editing keeps a diagram sound, and what has been edited can be exported.
-/
namespace Verif.Editor

theorem Sound.edits {a b : Board} (h : Sound a) (he : Edits a b) : Sound b := by
  induction he with
  | none => exact h
  | more _ he ih => exact ih.edit he

/-- The operations of a board. -/
theorem mem_graph {b : Board} {k : Key} {o : Op} :
    (k, o) ∈ b.graph.nodes ↔ ∃ n ∈ b.nodes, n.item = .op k.ns k.name o := by
  simp only [Board.graph, List.mem_filterMap]
  constructor
  · rintro ⟨n, hn, h⟩
    split at h
    · rename_i ns name o' hi
      cases h
      exact ⟨n, hn, hi⟩
    · cases h
  · rintro ⟨n, hn, hi⟩
    exact ⟨n, hn, by rw [hi]⟩

theorem graph_keys (b : Board) : b.graph.nodes.map (·.1) = b.nodes.filterMap Node.key? := by
  simp only [Board.graph]
  induction b.nodes with
  | nil => rfl
  | cons n l ih =>
    cases hi : n.item with
    | op ns name o =>
      rw [List.filterMap_cons_some (b := (⟨ns, name⟩, o)) (by simp only [hi]),
        List.filterMap_cons_some (b := ⟨ns, name⟩) (by simp only [Node.key?, hi]), List.map_cons, ih]
    | start =>
      rw [List.filterMap_cons_none (by simp only [hi]),
        List.filterMap_cons_none (by simp only [Node.key?, hi]), ih]
    | terminate =>
      rw [List.filterMap_cons_none (by simp only [hi]),
        List.filterMap_cons_none (by simp only [Node.key?, hi]), ih]

theorem Sound.nodesOk {b : Board} (h : Sound b) : NodesOk b.graph.nodes := by
  refine ⟨by rw [graph_keys]; exact h.keys, ?_⟩
  intro k o hm r s hk
  obtain ⟨n, hn, hi⟩ := mem_graph.1 hm
  cases hp : n.parent with
  | none =>
    have := h.top n hn hp _ _ _ hi
    rw [hk] at this
    simp at this
  | some p =>
    obtain ⟨m, hm', _, ns, name, so, e1, e2, e3⟩ := h.inside n hn p hp
    have := e3 _ _ _ hi
    rw [hk] at this
    obtain ⟨rfl, e⟩ := List.append_inj' this rfl
    cases e
    exact ⟨so, mem_graph.2 ⟨m, hm', e1⟩, e2⟩

theorem Sound.kind {b : Board} (h : Sound b) {n : Node} (hn : n ∈ b.nodes) {ns : List Name}
    {name : Name} {o : Op} (hi : n.item = .op ns name o) :
    b.graph.nodes.kind ⟨ns, name⟩ = some o.body.kind := by
  rw [Nodes.kind, get_of_mem h.nodesOk.uniq (mem_graph.2 ⟨n, hn, hi⟩)]
  rfl

/-- The exported edge of a wire. -/
theorem mem_graph_edges {b : Board} (h : Sound b) {e : Edge} (he : e ∈ b.graph.edges) :
    ∃ w ∈ b.edges, ∃ s ∈ b.nodes, ∃ t ∈ b.nodes, s.id = w.source ∧ t.id = w.target ∧
      w.kind.type ∈ validTypes s.item w.handle t.item ∧ (w.slot = none ∨ t.item.isSect = true) ∧
      e = ⟨b.place s, b.place t, w.kind, w.slot⟩ := by
  simp only [Board.graph, List.mem_filterMap] at he
  obtain ⟨w, hw, he⟩ := he
  obtain ⟨s, hs, t, ht, e1, e2, _, e4, e5⟩ := h.ends w hw
  rw [← e1, ← e2, h.node hs, h.node ht] at he
  cases he
  exact ⟨w, hw, s, hs, t, ht, e1, e2, e4, e5, rfl⟩

theorem outputs_allowed {o : Op} {ns : List Name} {name : Name} {kind : EdgeKind}
    (h : kind.type ∈ (Item.op ns name o).outputs) : allowedFrom o.body.kind kind = true := by
  simp only [Item.outputs] at h
  split at h <;> rename_i hk <;> rw [hk] <;> cases kind <;>
    simp [EdgeKind.type, allowedFrom] at h ⊢

theorem valid_parts {s t : Item} {h : Handle} {ty : EType} (hv : ty ∈ validTypes s h t) :
    ty ∈ s.outputs ∧ t.takes ty = true := by
  simp only [validTypes, List.mem_filter] at hv
  exact ⟨hv.1.1, hv.2⟩

theorem place_op {b : Board} {n : Node} {ns : List Name} {name : Name} {o : Op}
    (hi : n.item = .op ns name o) : b.place n = .op ⟨ns, name⟩ := by simp only [Board.place, hi]

/-- Where a start is, for a node that is one. -/
theorem place_start {b : Board} (h : Sound b) {n : Node} (hn : n ∈ b.nodes) (hi : n.item = .start) :
    b.place n = .start none ∨
      ∃ k, b.place n = .start (some k) ∧ b.graph.nodes.kind k = some .scope := by
  simp only [Board.place, hi]
  cases hp : n.parent with
  | none => exact .inl rfl
  | some p =>
    obtain ⟨m, hm, e0, ns, name, o, e1, e2, _⟩ := h.inside n hn p hp
    refine .inr ⟨⟨ns, name⟩, ?_, by rw [h.kind hm e1, e2]⟩
    simp only [← e0, h.node hm, Option.bind_some, Node.key?, e1]

theorem Sound.allowed {b : Board} (h : Sound b) : ∀ e ∈ b.graph.edges, Allowed b.graph.nodes e := by
  intro e he
  obtain ⟨w, _, s, hs, t, _, _, _, hv, _, rfl⟩ := mem_graph_edges h he
  obtain ⟨h1, _⟩ := valid_parts hv
  cases hi : s.item with
  | op ns name o =>
    rw [hi] at h1
    simp only [Allowed, place_op hi]
    exact ⟨_, h.kind hs hi, outputs_allowed h1⟩
  | start =>
    rw [hi] at h1
    have hk : w.kind = .default := by
      cases hk : w.kind <;> rw [hk] at h1 <;> simp [Item.outputs, EdgeKind.type] at h1 ⊢
    rcases place_start h hs hi with hp | ⟨k, hp, _⟩ <;> simp only [Allowed, hp, hk]
  | terminate => rw [hi] at h1; cases h1

theorem Sound.drawable {b : Board} (h : Sound b)
    (hsect : ∀ e ∈ b.edges, e.kind.type = .buffer → ∀ t ∈ b.nodes, t.id = e.target →
      t.item.isSect = false) :
    ∀ e ∈ b.graph.edges, Drawable b.graph.nodes e := by
  intro e he
  obtain ⟨w, hw, s, hs, t, ht, hse, hte, hv, hslot, rfl⟩ := mem_graph_edges h he
  obtain ⟨h1, h2⟩ := valid_parts hv
  cases hb : w.kind.buffer? with
  | some p =>
    have hty : w.kind.type = .buffer := by cases hk : w.kind <;> rw [hk] at hb <;> first | rfl | cases hb
    rw [hty] at h1 h2
    have hns := hsect w hw hty t ht hte
    have hsrc : ∃ ns name o, s.item = .op ns name o ∧ o.body.kind = .buffer := by
      cases hi : s.item with
      | op ns name o =>
        rw [hi] at h1
        refine ⟨_, _, _, rfl, ?_⟩
        cases hk : o.body.kind <;> simp [Item.outputs, hk] at h1 ⊢
      | start => rw [hi] at h1; simp [Item.outputs] at h1
      | terminate => rw [hi] at h1; simp [Item.outputs] at h1
    obtain ⟨ns, name, o, hi, hk⟩ := hsrc
    have htgt : ∃ ns name o, t.item = .op ns name o ∧
        (o.body.kind = .join ∨ o.body.kind = .listen ∨ o.body.kind = .access) := by
      cases hi : t.item with
      | op ns name o =>
        rw [hi] at h2 hns
        refine ⟨_, _, _, rfl, ?_⟩
        cases hk : o.body.kind <;> simp [Item.takes, Item.isSect, hk] at h2 hns ⊢
      | start => rw [hi] at h2; simp [Item.takes] at h2
      | terminate => rw [hi] at h2; simp [Item.takes] at h2
    obtain ⟨ns', name', o', hi', hk'⟩ := htgt
    simp only [Drawable, hb, place_op hi, place_op hi']
    refine ⟨_, _, rfl, rfl, by rw [h.kind hs hi, hk], ?_⟩
    rw [h.kind ht hi']
    rcases hk' with e | e | e <;> rw [e] <;> simp
  | none =>
    simp only [Drawable, hb]
    refine ⟨?_, ?_⟩
    · cases hi : t.item with
      | op ns name o =>
        simp only [targetNext, place_op hi, h.kind ht hi]
        rcases hslot with e | e
        · rw [e]; exact ⟨_, rfl⟩
        · rw [hi] at e
          have e : o.body.kind = .sect := by simpa [Item.isSect] using e
          rw [e]
          cases w.slot with
          | none => exact ⟨_, rfl⟩
          | some x => exact ⟨_, rfl⟩
      | start => rw [hi] at h2; simp [Item.takes] at h2
      | terminate =>
        rcases hslot with e | e
        · have : b.place t = .terminate (b.space t.parent) := by simp only [Board.place, hi]
          simp only [targetNext, e, this]
          exact ⟨_, rfl⟩
        · rw [hi] at e; cases e
    · cases hi : s.item with
      | op ns name o =>
        rw [hi] at h1
        simp only [place_op hi]
        exact ⟨_, h.kind hs hi, outputs_allowed h1⟩
      | start =>
        rcases place_start h hs hi with hp | ⟨k, hp, hk⟩ <;> simp only [hp]
        exact hk
      | terminate => rw [hi] at h1; cases h1

theorem place_inj {b : Board} (h : Sound b) {s t : Node} (hs : s ∈ b.nodes) (ht : t ∈ b.nodes)
    {k : Key} (h1 : b.place s = .op k) (h2 : b.place t = .op k) : s = t := by
  have key : ∀ n, b.place n = .op k → n.key? = some k := by
    intro n hp
    simp only [Board.place] at hp
    simp only [Node.key?]
    split at hp
    · rename_i hi; cases hp; rw [hi]
    · split at hp <;> cases hp
    · cases hp
  have hk := h.keys
  have k1 := key s h1
  have k2 := key t h2
  clear h1 h2 key h
  generalize b.nodes = l at hs ht hk
  induction l with
  | nil => cases hs
  | cons n l ih =>
    have hd : ∀ {x y : Node}, x.key? = some k → y ∈ l → y.key? = some k →
        ¬ ((x :: l).filterMap Node.key?).Nodup := by
      intro x y hx hy hyk hnd
      rw [List.filterMap_cons_some hx, List.nodup_cons] at hnd
      exact hnd.1 (List.mem_filterMap.2 ⟨y, hy, hyk⟩)
    rcases List.mem_cons.1 hs with e | hs
    · rcases List.mem_cons.1 ht with e' | ht
      · rw [e, e']
      · exact absurd hk (hd (e ▸ k1) ht k2)
    · rcases List.mem_cons.1 ht with e' | ht
      · exact absurd hk (hd (e' ▸ k2) hs k1)
      · refine ih hs ht (hk.sublist ?_)
        exact (List.sublist_cons_self n l).filterMap _

theorem start_inj {b : Board} (h : Sound b) {s t : Node} (hs : s ∈ b.nodes) (ht : t ∈ b.nodes)
    (h1 : s.item = .start) (h2 : t.item = .start) (hp : b.place s = b.place t) : s = t := by
  have hpar : s.parent = t.parent := by
    have key : ∀ n ∈ b.nodes, n.item = .start → ∀ p, n.parent = some p →
        ∃ m ∈ b.nodes, m.id = p ∧ ∃ k, b.place n = .start (some k) ∧ b.place m = .op k := by
      intro n hn hi p hp
      obtain ⟨m, hm, e0, ns, name, o, e1, _⟩ := h.inside n hn p hp
      refine ⟨m, hm, e0, ⟨ns, name⟩, ?_, place_op e1⟩
      simp only [Board.place, hi, hp, ← e0, h.node hm, Option.bind_some, Node.key?, e1]
    have top : ∀ n : Node, n.item = .start → n.parent = none → b.place n = .start none := by
      intro n hi hp; simp only [Board.place, hi, hp]
    cases ps : s.parent with
    | none =>
      cases pt : t.parent with
      | none => rfl
      | some q =>
        obtain ⟨_, _, _, k, e, _⟩ := key t ht h2 q pt
        rw [top s h1 ps, e] at hp
        cases hp
    | some p =>
      obtain ⟨m, hm, e0, k, e1, e2⟩ := key s hs h1 p ps
      cases pt : t.parent with
      | none => rw [top t h2 pt, e1] at hp; cases hp
      | some q =>
        obtain ⟨m', hm', e0', k', e1', e2'⟩ := key t ht h2 q pt
        rw [e1, e1'] at hp
        cases hp
        rw [← e0, ← e0', place_inj h hm hm' e2 e2']
  have hpw := h.starts
  generalize b.nodes = l at hs ht hpw
  induction l with
  | nil => cases hs
  | cons n l ih =>
    rw [List.pairwise_cons] at hpw
    rcases List.mem_cons.1 hs with e | hs
    · rcases List.mem_cons.1 ht with e' | ht
      · rw [e, e']
      · exact absurd hpar (e ▸ hpw.1 t ht (e ▸ h1) h2)
    · rcases List.mem_cons.1 ht with e' | ht
      · exact absurd hpar.symm (e' ▸ hpw.1 s hs (e' ▸ h2) h1)
      · exact ih hs ht hpw.2

/-- Two edges of a sound diagram with the same source that want the same field start at an `unzip`, a
`split` or a `section`. -/
theorem no_conflict {b : Board} {s t t' : Node} {w w' : Wire} (hs : s ∈ b.nodes)
    (ht : w.source = s.id) (ht' : w'.source = s.id) (hk : w.kind = w'.kind)
    (hb : w.kind.buffer? = none) (hh : s.item.hasHandle w.handle = true)
    (hh' : s.item.hasHandle w'.handle = true)
    (hv : w.kind.type ∈ validTypes s.item w.handle t.item)
    (hv' : w'.kind.type ∈ validTypes s.item w'.handle t'.item)
    (hsing : w.source = w'.source → w.handle = w'.handle →
      ∀ s ∈ b.nodes, s.id = w.source → s.item.single w.handle = false)
    (hfc : ∀ ns name o, s.item = .op ns name o → o.body.kind ≠ .forkClone) :
    ∃ ns name o, s.item = .op ns name o ∧
      (o.body.kind = .unzip ∨ o.body.kind = .split ∨ o.body.kind = .sect) := by
  have hout : ∀ {w : Wire} {t : Node}, w.kind.type ∈ validTypes s.item w.handle t.item →
      w.kind.type ∈ s.item.outputs ∧ w.handle.allows w.kind.type = true := by
    intro w t hv
    simp only [validTypes, List.mem_filter] at hv
    exact hv.1
  obtain ⟨o1, a1⟩ := hout hv
  obtain ⟨_, a2⟩ := hout hv'
  rw [← hk] at a2
  have hsg := hsing (ht.trans ht'.symm)
  have hb : w.kind.type ≠ .buffer := by
    intro e
    cases hk : w.kind <;> rw [hk] at hb e <;> first | (cases hb; done) | (cases e; done)
  generalize w.kind.type = ty at o1 a1 a2 hb
  generalize w.handle = hd at a1 hh hsg
  generalize w'.handle = hd' at a2 hh' hsg
  cases hi : s.item with
  | start =>
    rw [hi] at hh hh'
    cases hd <;> cases hd' <;> first | (cases hh; done) | (cases hh'; done) | skip
    have := hsg rfl s hs ht.symm
    rw [hi] at this
    cases this
  | terminate => rw [hi] at o1; cases o1
  | op ns name o =>
    refine ⟨_, _, _, rfl, ?_⟩
    have hfc := hfc _ _ _ hi
    have hsg := fun e => hsg e s hs ht.symm
    rw [hi] at hh hh' o1 hsg
    simp only [Item.outputs, Item.hasHandle, Item.single] at hh hh' o1 hsg
    cases hk : o.body.kind <;> rw [hk] at hfc o1 <;> first
      | exact .inl rfl
      | exact .inr (.inl rfl)
      | exact .inr (.inr rfl)
      | exact absurd rfl hfc
      | (cases ty <;> first
          | (simp at o1; done)
          | exact absurd rfl hb
          | (cases hd <;> first
              | (cases a1; done)
              | (simp [hk] at hh; done)
              | (cases hd' <;> first
                  | (cases a2; done)
                  | (simp [hk] at hh'; done)
                  | (have := hsg rfl; rw [hk] at this; cases this; done))))

/-- **C122** For every diagram that is made with the editor, from an empty one or from any that is
sound, by any number of edits in any order: it is sound. No two nodes have the same id and no two
operations the same place, everything is in a scope that exists and has its namespace, both ends of
every edge exist and allow it, and no two edges start at an output that is for one.

Missing from the full claim is renaming an operation to a name that is taken
(`C122_rename_taken_violated`) and renaming a scope with something inside
(`C122_rename_scope_violated`). -/
theorem C122_sound_partial (a b : Board) (ha : a = Board.empty ∨ Sound a) (h : Edits a b) :
    Sound b := by
  refine Sound.edits ?_ h
  rcases ha with rfl | ha
  · exact Sound.empty
  · exact ha

/-- **C122** For every diagram and all nodes that are removed from it, sound or not: a node stays iff it
is not one of them and in none of them at any depth, and is not changed; an edge stays iff both its ends
do. -/
theorem C122_delete (b : Board) (ids : List Uid) :
    (∀ n, n ∈ (b.remove ids).nodes ↔ n ∈ b.nodes ∧ ¬ Within b ids n.id) ∧
    ∀ e, e ∈ (b.remove ids).edges ↔
      e ∈ b.edges ∧ ¬ Within b ids e.source ∧ ¬ Within b ids e.target :=
  ⟨fun _ => mem_remove_nodes, fun _ => mem_remove_edges⟩

/-- **C122** For every registry and every diagram that is made with the editor by such edits: it can be
exported, unless a buffer is connected to a section or an operation has buffers by index and by key.

Missing from the full claim are those two (`C122_buffer_section_violated`,
`C122_mixed_buffers_violated`) and the edits that `C122_sound_partial` is missing. -/
theorem C122_export_partial (reg : Registry) (b : Board) (templates : String)
    (h : Edits Board.empty b)
    (hsect : ∀ e ∈ b.edges, e.kind.type = .buffer → ∀ t ∈ b.nodes, t.id = e.target →
      t.item.isSect = false)
    (hmix : ∀ e ∈ b.edges, ∀ e' ∈ b.edges, e.target = e'.target →
      ∀ i f k g, e.kind = .bufferSeq i f → e'.kind ≠ .bufferKey k g) :
    ∃ d, export_ reg b.graph templates = some d := by
  have hs : Sound b := Sound.empty.edits h
  refine export_total reg templates hs.nodesOk (hs.drawable hsect) ?_
  refine List.pairwise_of_forall_mem_list ?_
  intro e he e' he' hm
  obtain ⟨w, hw, s, _, t, ht, _, hte, hv, _, rfl⟩ := mem_graph_edges hs he
  obtain ⟨w', hw', s', _, t', ht', _, hte', hv', _, rfl⟩ := mem_graph_edges hs he'
  obtain ⟨m1, m2⟩ := hm
  simp only at m1 m2
  have hbuf : w.kind.type = .buffer := by
    rcases m2 with ⟨i, f, k, g, e1, _⟩ | ⟨i, f, k, g, e1, _⟩ <;> rw [e1] <;> rfl
  obtain ⟨_, h2⟩ := valid_parts hv
  rw [hbuf] at h2
  have htt : t = t' := by
    cases hi : t.item with
    | op ns name o =>
      rw [place_op hi] at m1
      exact place_inj hs ht ht' (place_op hi) m1.symm
    | start => rw [hi] at h2; simp [Item.takes] at h2
    | terminate => rw [hi] at h2; simp [Item.takes] at h2
  subst htt
  rcases m2 with ⟨i, f, k, g, e1, e2⟩ | ⟨i, f, k, g, e1, e2⟩
  · exact hmix w hw w' hw' (hte.symm.trans hte') i f k g e1 e2
  · exact hmix w' hw' w hw (hte'.symm.trans hte) i f k g e2 e1

/-- **C122** For every diagram that is made with the editor by such edits: what is exported from it is
what `C121_drawn_only`, `C121_only_drawn`, `C121_operations` and `C121_every_edge_partial` are about. Its
operations are in scopes, and every edge, none of which is left out, is one that can be drawn. -/
theorem C122_drawn (b : Board) (h : Edits Board.empty b) :
    NodesOk b.graph.nodes ∧ (∀ e ∈ b.graph.edges, Allowed b.graph.nodes e) ∧
      b.graph.edges.length = b.edges.length := by
  have hs : Sound b := Sound.empty.edits h
  refine ⟨hs.nodesOk, hs.allowed, ?_⟩
  simp only [Board.graph]
  have : ∀ l : List Wire, (∀ e ∈ l, e ∈ b.edges) → (l.filterMap fun e =>
      match b.node e.source, b.node e.target with
      | some s, some t => some (⟨b.place s, b.place t, e.kind, e.slot⟩ : Edge)
      | _, _ => none).length = l.length := by
    intro l hl
    induction l with
    | nil => rfl
    | cons e l ih =>
      obtain ⟨s, h1, t, h2, e1, e2, _⟩ := hs.ends e (hl e (List.mem_cons_self ..))
      rw [List.filterMap_cons_some (b := ⟨b.place s, b.place t, e.kind, e.slot⟩)
        (by simp only [← e1, ← e2, hs.node h1, hs.node h2]), List.length_cons, List.length_cons,
        ih fun e he => hl e (List.mem_cons_of_mem _ he)]
  exact this _ fun _ h => h

/-- **C122** For every registry and every diagram that is made with the editor by such edits and can be
exported: every edge is exported, if no two edges from the same `unzip`, `split` or `section` are for the
same output and no two buffers are for the same slot of an operation; except streams that the registry
does not know. Nothing else that can be drawn makes an edge get lost.

Missing from the full claim are those edges (`C122_same_output_violated`), those streams, and the edits
that `C122_sound_partial` is missing. -/
theorem C122_every_edge_partial (reg : Registry) (b : Board) (templates : String) (d : Diagram)
    (h : Edits Board.empty b) (hd : export_ reg b.graph templates = some d)
    (hout : b.edges.Pairwise fun w w' => w.source = w'.source → w.kind = w'.kind →
      ∀ s ∈ b.nodes, s.id = w.source → ∀ ns name o, s.item = .op ns name o →
        ¬ (o.body.kind = .unzip ∨ o.body.kind = .split ∨ o.body.kind = .sect))
    (hbuf : b.edges.Pairwise fun w w' => w.target = w'.target → ∀ i f g,
      w.kind.buffer? = some (i, f) → w'.kind.buffer? ≠ some (i, g)) :
    ∀ e ∈ b.graph.edges, KnownStream reg b.graph.nodes e → Exported d.start (opAt d.ops) e := by
  have hs : Sound b := Sound.empty.edits h
  intro e he hk
  refine C121_every_edge_partial reg b.graph templates d hs.nodesOk hs.allowed ?_ hd e he hk
  have hpair := ((hs.single.and hout).and hbuf)
  simp only [Board.graph]
  rw [List.pairwise_filterMap]
  refine hpair.imp_of_mem ?_
  intro w w' hw hw' hx a ha a' ha' hc
  obtain ⟨⟨hsing, hout⟩, hbuf⟩ := hx
  obtain ⟨s, h1, t, h2, e1, e2, e3, e4, _⟩ := hs.ends w hw
  obtain ⟨s', h1', t', h2', e1', e2', e3', e4', _⟩ := hs.ends w' hw'
  rw [← e1, ← e2, hs.node h1, hs.node h2] at ha
  rw [← e1', ← e2', hs.node h1', hs.node h2'] at ha'
  cases ha
  cases ha'
  simp only [Conflict] at hc
  cases hb : w.kind.buffer? with
  | some p =>
    obtain ⟨i, f⟩ := p
    cases hb' : w'.kind.buffer? with
    | none => rw [hb, hb'] at hc; exact hc
    | some p' =>
      obtain ⟨j, g⟩ := p'
      rw [hb, hb'] at hc
      obtain ⟨hc1, rfl⟩ := hc
      have hty : w.kind.type = .buffer := by
        cases hk : w.kind <;> rw [hk] at hb <;> first | rfl | cases hb
      obtain ⟨_, h3⟩ := valid_parts e4
      rw [hty] at h3
      have htt : t = t' := by
        cases hi : t.item with
        | op ns name o =>
          rw [place_op hi] at hc1
          exact place_inj hs h2 h2' (place_op hi) hc1.symm
        | start => rw [hi] at h3; simp [Item.takes] at h3
        | terminate => rw [hi] at h3; simp [Item.takes] at h3
      subst htt
      exact hbuf (e2.symm.trans e2') i f g hb hb'
  | none =>
    cases hb' : w'.kind.buffer? with
    | some p => rw [hb, hb'] at hc; exact hc
    | none =>
      rw [hb, hb'] at hc
      obtain ⟨hc1, hc2, hc3⟩ := hc
      obtain ⟨o1, _⟩ := valid_parts e4
      obtain ⟨o1', _⟩ := valid_parts e4'
      have hss : s = s' := by
        cases hi : s.item with
        | op ns name o =>
          rw [place_op hi] at hc1
          exact place_inj hs h1 h1' (place_op hi) hc1.symm
        | start =>
          cases hi' : s'.item with
          | op ns name o =>
            rw [place_op hi'] at hc1
            exact place_inj hs h1 h1' hc1 (place_op hi')
          | start => exact start_inj hs h1 h1' hi hi' hc1
          | terminate => rw [hi'] at o1'; cases o1'
        | terminate => rw [hi] at o1; cases o1
      subst hss
      obtain ⟨ns, name, o, q1, q2⟩ := no_conflict (t := t) (t' := t') h1 e1.symm e1'.symm hc2 hb e3 e3'
        e4 e4' hsing (by
          intro ns name o hi hfc
          exact hc3 _ (place_op hi) ((hs.kind h1 hi).trans (congrArg some hfc)))
      exact hout (e1.symm.trans e1') hc2 s h1 e1 ns name o q1 q2

/-- **C122** For every sound diagram and any two of its nodes: an edge that is drawn from one to the other
is added iff there is such an output, some type that both ends allow, no other edge at an output that is
for one, and not the same edge already. It has a type that both ends allow, with its default data. Otherwise
nothing happens. -/
theorem C122_connect (b : Board) (hb : Sound b) (s t : Node) (hs : s ∈ b.nodes) (ht : t ∈ b.nodes)
    (id : Uid) (h : Handle) :
    let free := s.item.hasHandle h = true ∧
      (∃ ty ∈ s.item.outputs, h.allows ty = true ∧ t.item.takes ty = true) ∧
      (s.item.single h = true → ∀ e ∈ b.edges, e.source = s.id → e.handle ≠ h) ∧
      ∀ e ∈ b.edges, e.source = s.id → e.handle = h → e.target ≠ t.id
    (free → ∃ w : Wire, b.connect id s.id h t.id = { b with edges := b.edges ++ [w] } ∧
      w.id = id ∧ w.source = s.id ∧ w.handle = h ∧ w.target = t.id ∧
      w.kind.type ∈ s.item.outputs ∧ h.allows w.kind.type = true ∧
      t.item.takes w.kind.type = true ∧ w.kind = w.kind.type.fresh ∧
      w.slot = if t.item.isSect then some "" else none) ∧
    (¬ free → b.connect id s.id h t.id = b) := by
  simp only
  have hv : (∃ ty ∈ s.item.outputs, h.allows ty = true ∧ t.item.takes ty = true) ↔
      validTypes s.item h t.item ≠ [] := by
    constructor
    · rintro ⟨ty, h1, h2, h3⟩ he
      have : ty ∈ validTypes s.item h t.item := by
        simp only [validTypes, List.mem_filter]; exact ⟨⟨h1, h2⟩, h3⟩
      rw [he] at this
      cases this
    · intro he
      obtain ⟨ty, hty⟩ := List.exists_mem_of_ne_nil _ he
      simp only [validTypes, List.mem_filter] at hty
      exact ⟨ty, hty.1.1, hty.1.2, hty.2⟩
  constructor
  · rintro ⟨h1, h2, h3, h4⟩
    have h5 : (b.edges.any fun e => e.source == s.id && e.handle == h && e.target == t.id) = false := by
      rw [List.any_eq_false]
      intro e he hx
      simp only [Bool.and_eq_true, beq_iff_eq] at hx
      exact h4 e he hx.1.1 hx.1.2 hx.2
    cases hl : validTypes s.item h t.item with
    | nil => exact absurd hl (hv.1 h2)
    | cons ty tys =>
      have h6 : (s.item.single h && b.edges.any fun e => e.source == s.id && e.handle == h) = false := by
        cases hsg : s.item.single h with
        | false => rfl
        | true =>
          rw [Bool.true_and, List.any_eq_false]
          intro e he hx
          simp only [Bool.and_eq_true, beq_iff_eq] at hx
          exact h3 hsg e he hx.1 hx.2
      have hty : ty ∈ validTypes s.item h t.item := by rw [hl]; exact List.mem_cons_self ..
      simp only [validTypes, List.mem_filter] at hty
      refine ⟨⟨id, s.id, h, t.id, ty.fresh, t.item.freshSlot⟩, ?_, rfl, rfl, rfl, rfl, ?_⟩
      · simp only [Board.connect, Board.tryCreate, hb.node hs, hb.node ht, h1, if_true, hl, h6, h5,
          Bool.false_eq_true, if_false]
      · simp only [fresh_type]
        exact ⟨hty.1.1, hty.1.2, hty.2, trivial, rfl⟩
  · intro hn
    simp only [Board.connect]
    split
    · rfl
    · rename_i w hw
      obtain ⟨_, _, _, _, s', hs', t', ht', e1, e2, e3, e4, _, e5⟩ := tryCreate_some hw
      have := id_inj hb.ids hs' hs e1
      subst this
      have := id_inj hb.ids ht' ht e2
      subst this
      split
      · rfl
      · rename_i hx
        refine absurd ⟨e3, hv.2 ?_, ?_, ?_⟩ hn
        · intro he; rw [he] at e4; cases e4
        · intro hsg e he q1 q2
          exact e5 hsg e he ⟨q1, q2⟩
        · intro e he q1 q2 q3
          refine hx (List.any_eq_true.2 ⟨e, he, ?_⟩)
          simp [q1, q2, q3]

/-- **C122** An edit changes what it is about and nothing else: those of an edge leave all nodes and
other edges, those of a node leave all edges and other nodes. An edge that is removed is gone, a node that
is renamed has the new name and is otherwise the same, and an operation that is added to the diagram or to
a scope is there. -/
theorem C122_untouched (b : Board) (id : Uid) :
    (∀ source h target, (b.reconnect id source h target).nodes = b.nodes ∧
      ∀ e, e.id ≠ id → (e ∈ (b.reconnect id source h target).edges ↔ e ∈ b.edges)) ∧
    (Sound b → ∀ f, (b.field id f).nodes = b.nodes ∧
      ∀ e, e.id ≠ id → (e ∈ (b.field id f).edges ↔ e ∈ b.edges)) ∧
    ((b.removeEdge id).nodes = b.nodes ∧
      ∀ e, e ∈ (b.removeEdge id).edges ↔ e ∈ b.edges ∧ e.id ≠ id) ∧
    (∀ o, (b.setOp id o).edges = b.edges ∧
      ∀ n, n.id ≠ id → (n ∈ (b.setOp id o).nodes ↔ n ∈ b.nodes)) ∧
    (∀ name, (b.rename id name).edges = b.edges ∧
      (∀ n, n.id ≠ id → (n ∈ (b.rename id name).nodes ↔ n ∈ b.nodes)) ∧
      ∀ n ∈ b.nodes, n.id = id → ∀ ns old o, n.item = .op ns old o →
        (⟨id, n.parent, .op ns name o⟩ : Node) ∈ (b.rename id name).nodes) ∧
    ∀ parent i1 i2 name o, (b.add parent id i1 i2 name o).edges = b.edges ∧
      (∀ n ∈ b.nodes, n ∈ (b.add parent id i1 i2 name o).nodes) ∧
      (parent = none → (⟨id, none, .op [] name o⟩ : Node) ∈ (b.add parent id i1 i2 name o).nodes) ∧
      ∀ m ns sn so, parent = some m.id → m ∈ b.nodes → Sound b → m.item = .op ns sn so →
        so.body.kind = .scope →
        (⟨id, some m.id, .op (ns ++ [sn]) name o⟩ : Node) ∈ (b.add parent id i1 i2 name o).nodes := by
  have hup : ∀ f, (b.modify id f).edges = b.edges ∧
      ∀ n, n.id ≠ id → (n ∈ (b.modify id f).nodes ↔ n ∈ b.nodes) := by
    intro f
    refine ⟨rfl, fun n hn => ?_⟩
    rw [modify_nodes, List.mem_map]
    constructor
    · rintro ⟨m, hm, rfl⟩
      rw [up_id] at hn
      rw [up_other hn]
      exact hm
    · intro h; exact ⟨n, h, up_other hn⟩
  refine ⟨?_, ?_, ?_, ?_, ?_, ?_⟩
  · intro source h target
    simp only [Board.reconnect]
    split
    · exact ⟨rfl, fun _ _ => Iff.rfl⟩
    · rename_i w hw
      obtain ⟨h1, _⟩ := tryCreate_some hw
      refine ⟨rfl, fun e he => ?_⟩
      simp only [List.mem_map]
      constructor
      · rintro ⟨e', hm, rfl⟩
        split
        · rename_i hx; rw [if_pos hx] at he; exact absurd h1 he
        · exact hm
      · intro hm; exact ⟨e, hm, if_neg he⟩
  · intro hsound f
    obtain ⟨kind, slot, hform⟩ := hsound.field_eq id f
    refine ⟨rfl, fun e he => ?_⟩
    rw [hform]
    have hedges : (b.setEdge id kind slot).edges = b.edges.map (b.touch id kind slot) := rfl
    rw [hedges, List.mem_map]
    constructor
    · rintro ⟨e', hm, rfl⟩
      have hid : (b.touch id kind slot e').id = e'.id := by
        rcases touch_eq b id kind slot e' with hx | ⟨_, _, _, _, _, hx⟩ <;> rw [hx]
      rw [hid] at he
      simp only [Board.touch, if_neg he]
      exact hm
    · intro hm
      exact ⟨e, hm, by simp only [Board.touch, if_neg he]⟩
  · refine ⟨rfl, fun e => ?_⟩
    simp only [Board.removeEdge, List.mem_filter, bne_iff_ne, ne_eq]
  · intro o; exact hup _
  · intro name
    refine ⟨rfl, (hup _).2, ?_⟩
    intro n hn hid ns old o hi
    rw [Board.rename, modify_nodes]
    refine List.mem_map.2 ⟨n, hn, ?_⟩
    subst hid
    simp only [up, if_true, hi]
  · intro parent i1 i2 name o
    refine ⟨?_, ?_, ?_, ?_⟩
    · simp only [Board.add]; split <;> rfl
    · intro n hn
      simp only [Board.add]
      split
      · exact List.mem_append_left _ hn
      · exact hn
    · rintro rfl
      simp only [Board.add, Board.canHold, if_true, Board.space]
      refine List.mem_append_right _ ?_
      split <;> exact List.mem_cons_self ..
    · rintro m ns sn so rfl hm hs hi hk
      have hnode := hs.node hm
      obtain ⟨mid, mp, mi⟩ := m
      simp only at hi
      subst hi
      have h1 : b.canHold (some mid) = true := by
        simp only [Board.canHold]
        simp only at hnode
        rw [hnode]
        simp [hk]
      have h2 : b.space (some mid) = ns ++ [sn] := by
        simp only [Board.space]
        simp only at hnode
        rw [hnode]
      simp only [Board.add, h1, if_true, h2]
      refine List.mem_append_right _ ?_
      split <;> exact List.mem_cons_self ..

end Verif.Editor
