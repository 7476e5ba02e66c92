import Verif.Editor.Exact
import Verif.Editor.Props
/-
C121: what the editor exports is what is drawn, and can be opened again.
-/
namespace Verif.Editor

theorem set_names {f : Forest} {n : Name} {o : Op} {k : Forest} {m : Name}
    (h : m ∈ (f.set n o k).names) : m = n ∨ m ∈ f.names := by
  induction f with
  | nil => simpa [Forest.set, Forest.names] using h
  | cons n' o' kids rest _ ih =>
    simp only [Forest.set] at h
    split at h
    · rename_i hn
      subst hn
      exact .inr h
    · rcases List.mem_cons.1 h with rfl | h
      · exact .inr (List.mem_cons_self ..)
      · exact (ih h).imp id (List.mem_cons_of_mem _)

theorem set_uniq {f : Forest} (n : Name) (o : Op) {k : Forest} (h : f.Uniq) (hk : k.Uniq) :
    (f.set n o k).Uniq := by
  induction f with
  | nil => exact ⟨List.not_mem_nil, hk, trivial⟩
  | cons n' o' kids rest _ ih =>
    simp only [Forest.set]
    split
    · rename_i hn
      subst hn
      exact ⟨h.1, hk, h.2.2⟩
    · rename_i hn
      refine ⟨fun hm => ?_, h.2.1, ih h.2.2⟩
      rcases set_names hm with e | e
      · exact hn e
      · exact h.1 e

theorem find_uniq {f : Forest} {n : Name} {o : Op} {k : Forest} (h : f.Uniq)
    (hf : f.find n = some (o, k)) : k.Uniq := by
  induction f with
  | nil => cases hf
  | cons n' o' kids rest _ ih =>
    simp only [Forest.find] at hf
    split at hf
    · cases hf; exact h.2.1
    · exact ih h.2.2 hf

theorem insert_uniq {ns : List Name} {n : Name} {o : Op} {f f' : Forest} (h : f.Uniq)
    (hf : f.insert ns n o = some f') : f'.Uniq := by
  induction ns generalizing f f' with
  | nil => cases hf; exact set_uniq _ _ h trivial
  | cons s ns ih =>
    simp only [Forest.insert] at hf
    split at hf
    · cases hf
    · rename_i so kids hk
      split at hf
      · obtain ⟨k', h1, rfl⟩ := Option.map_eq_some_iff.1 hf
        exact set_uniq _ _ h (ih (find_uniq h hk) h1)
      · cases hf

theorem build_uniq {l : Nodes} {f f' : Forest} (h : f.Uniq) (hf : build f l = some f') :
    f'.Uniq := by
  induction l generalizing f with
  | nil => cases hf; exact h
  | cons p l ih =>
    obtain ⟨k, o⟩ := p
    obtain ⟨f1, h1, h2⟩ := Option.bind_eq_some_iff.1 hf
    exact ih (insert_uniq h h1) h2

/-- **C121** For every registry and all edges: what is exported does not depend on connections that
the nodes had from before. Two graphs with the same edges, and nodes that may differ only in their
connections, are exported alike. -/
theorem C121_drawn_only (reg : Registry) (N N' : Nodes) (es : List Edge) (templates : String)
    (h : SameNodes N N') : export_ reg ⟨N, es⟩ templates = export_ reg ⟨N', es⟩ templates := by
  simp only [export_, same_cleared h, same_kind h, same_valid h]

/-- **C121** For every registry and every graph that can be exported: all connections of the exported
diagram are drawn. Every target of every operation, where the diagram and its scopes start, and every
buffer come from an edge of the graph, or are `dispose`; and a join clones exactly the buffers whose
edges say so. -/
theorem C121_only_drawn (reg : Registry) (g : Graph) (templates : String) (d : Diagram)
    (hn : NodesOk g.nodes) (h : export_ reg g templates = some d) :
    (d.start = .dispose ∨
      ∃ e ∈ g.edges, e.source = .start none ∧ e.target.next? e.slot = some d.start) ∧
    ∀ ns n o, opAt d.ops ns n = some o → OnlyDrawn g.edges ⟨ns, n⟩ o.body := by
  obtain ⟨N, es⟩ := g
  obtain ⟨dr, h1, _, _, h4, h5, _⟩ := export_some hn h
  have hd : DraftOnly N ([] ++ es.filter (validEdge reg N)) dr := by
    refine DraftOnly.all ⟨cleared_heads N .dispose, .inl rfl, ?_⟩
      (fun e hx => (List.mem_filter.1 hx).2) h1
    intro k o hk
    rw [cleared, get_map_body] at hk
    obtain ⟨o', _, rfl⟩ := Option.map_eq_some_iff.1 hk
    exact clear_only _ _
  rw [List.nil_append] at hd
  have hsub : ∀ {e}, e ∈ es.filter (validEdge reg N) → e ∈ es := fun h => (List.mem_filter.1 h).1
  refine ⟨?_, ?_⟩
  · rw [h4]
    exact hd.start.imp id fun ⟨e, he, hx⟩ => ⟨e, hsub he, hx⟩
  · intro ns n o ho
    rw [h5] at ho
    have hb := hd.bodies ⟨ns, n⟩ o ho
    refine ⟨?_, ?_, ?_, ?_⟩
    · intro kind t hl
      exact (hb.targets kind t hl).imp id fun ⟨e, he, hx⟩ => ⟨e, hsub he, hx⟩
    · intro next streams start hs
      obtain ⟨q1, q2⟩ := hb.scope next streams start hs
      exact ⟨q1, q2.imp id fun ⟨e, he, hx⟩ => ⟨e, hsub he, hx⟩⟩
    · intro s kind n' hs hh
      obtain ⟨e, he, hx⟩ := hb.buffers s kind n' hs hh
      exact ⟨e, hsub he, hx⟩
    · intro s c next hs i
      rw [hb.clone s c next hs i]
      constructor
      · rintro ⟨e, he, hx⟩; exact ⟨e, hsub he, hx⟩
      · rintro ⟨e, he, h2, h3⟩
        refine ⟨e, List.mem_filter.2 ⟨he, ?_⟩, h2, h3⟩
        obtain ⟨src, tgt, kind, slot⟩ := e
        cases kind <;> first | rfl | cases h3

/-- **C121** For every registry and every graph that can be exported: the operations of the exported
diagram are the nodes of the graph, each in its place, with its settings and its builder. -/
theorem C121_operations (reg : Registry) (g : Graph) (templates : String) (d : Diagram)
    (hn : NodesOk g.nodes) (h : export_ reg g templates = some d) (k : Key) :
    (∀ o, (k, o) ∈ g.nodes → ∃ o', opAt d.ops k.ns k.name = some o' ∧ SameSettings o o') ∧
    ∀ o', opAt d.ops k.ns k.name = some o' → ∃ o, (k, o) ∈ g.nodes := by
  obtain ⟨N, es⟩ := g
  obtain ⟨dr, h1, hh, hkeys, _, h5, _⟩ := export_some hn h
  constructor
  · intro o hm
    have hm : (k, o) ∈ N := hm
    have hg := get_of_mem hn.uniq hm
    have hk : k ∈ dr.nodes.map (·.1) := by rw [hkeys]; exact List.mem_map.2 ⟨_, hm, rfl⟩
    obtain ⟨o', ho'⟩ := Option.isSome_iff_exists.1 (mem_keys_get hk)
    refine ⟨o', (h5 _ _).trans ho', ?_⟩
    obtain ⟨o2, q1, q2⟩ := hh k o' ho'
    have hx := extra_all h1 k
    simp only at q1
    rw [hg] at q1
    cases q1
    rw [ho'] at hx
    simp only [cleared, get_map_body, hg, Option.map_some, Option.some.injEq] at hx
    refine ⟨hx.symm, kind_of_head q2, ?_⟩
    intro x y s t s' t' e1 e2
    rw [e1, e2] at q2
    exact congrArg Prod.snd q2
  · intro o' ho'
    obtain ⟨o, q1, _⟩ := hh k o' ((h5 _ _).symm.trans ho')
    exact ⟨o, get_mem q1⟩

/-- **C121** For every registry and every graph that can be exported, in which all edges can be drawn
and no two want the same field: every edge is in the exported diagram, except streams that the
registry does not know.

Missing from the full claim are graphs in which two edges want the same field
(`C121_same_field_violated`) and those streams. -/
theorem C121_every_edge_partial (reg : Registry) (g : Graph) (templates : String) (d : Diagram)
    (hn : NodesOk g.nodes) (ha : ∀ e ∈ g.edges, Allowed g.nodes e)
    (hc : g.edges.Pairwise fun a b => ¬ Conflict g.nodes a b)
    (h : export_ reg g templates = some d) (e : Edge) (he : e ∈ g.edges)
    (hk : KnownStream reg g.nodes e) : Exported d.start (opAt d.ops) e := by
  obtain ⟨N, es⟩ := g
  obtain ⟨dr, h1, _, _, h4, h5, _⟩ := export_some hn h
  have hops : opAt d.ops = dr.ops := by funext ns n; exact h5 ns n
  rw [hops, h4]
  have hv : validEdge reg N e = true := by
    obtain ⟨src, tgt, kind, slot⟩ := e
    cases kind <;> try rfl
    rename_i s
    obtain ⟨k, o, b, next, l, x, xs, e1, e2, e3, e4⟩ := hk s rfl
    simp only at e1 e2
    subst e1
    obtain ⟨ex, body⟩ := o
    simp only at e3
    subst e3
    simp only [validEdge, e2, e4]
  exact (exported_all (cleared_heads N .dispose)
    (fun e he => ha e (List.mem_filter.1 he).1) (fun e he => (List.mem_filter.1 he).2)
    (hc.filter _) h1).1 e (List.mem_filter.2 ⟨he, hv⟩)

/-- **C121** For every registry and every graph that can be exported, whose edges stay in their
namespaces and do not go to named inputs of sections: if what is exported has no holes in its arrays,
the diagram can be opened again, and exporting it again gives the same diagram.

Missing from the full claim are edges that cross namespaces (`C121_namespaces_violated`), edges to
named inputs of sections (`C121_section_violated`), and arrays with holes
(`C121_holes_violated`). -/
theorem C121_reopen_partial (reg : Registry) (g : Graph) (templates : String) (d : Diagram)
    (hn : NodesOk g.nodes) (he : ∀ e ∈ g.edges, EdgeOk e) (h : export_ reg g templates = some d)
    (hf : ∀ ns n o, opAt d.ops ns n = some o → Filled o.body) :
    ∃ d', roundTrip reg d = some d' ∧ SameDiagram d d' := by
  obtain ⟨N, es⟩ := g
  obtain ⟨dr, h1, hh, hkeys, h4, h5, _, h7, h8⟩ := export_some hn h
  have hu : d.ops.Uniq := by
    simp only [export_, Option.bind_eq_some_iff, Option.map_eq_some_iff] at h
    obtain ⟨_, _, _, h2, rfl⟩ := h
    exact build_uniq (f := .nil) trivial h2
  have hok : DraftOk reg N dr := by
    refine DraftOk.all ⟨cleared_heads N .dispose, .inr rfl, ?_⟩
      (fun e hx => he e (List.mem_filter.1 hx).1) (fun e hx => (List.mem_filter.1 hx).2) h1
    intro k o hk
    rw [cleared, get_map_body] at hk
    obtain ⟨o', _, rfl⟩ := Option.map_eq_some_iff.1 hk
    exact clear_holes _
  have hsame : ∀ ns, SameKinds (fun n => N.get ⟨ns, n⟩) (opAt d.ops ns) := by
    intro ns n
    rw [h5]
    show (N.get ⟨ns, n⟩).map _ = (dr.nodes.get ⟨ns, n⟩).map _
    cases hg : dr.nodes.get ⟨ns, n⟩ with
    | some o =>
      obtain ⟨o', q1, q2⟩ := hh _ _ hg
      simp only at q1
      rw [q1]
      exact congrArg some (kind_of_head q2)
    | none =>
      cases hN : N.get ⟨ns, n⟩ with
      | none => rfl
      | some o =>
        have := mem_keys_get (N := dr.nodes) (k := ⟨ns, n⟩) (by rw [hkeys]; exact get_mem_keys hN)
        rw [hg] at this
        cases this
  refine C120_round_trip_partial reg d ⟨hu, ?_, ?_, ?_, h7, h8⟩
  · intro ns n m hm
    have hs1 := hsame (ns ++ [n]) m
    obtain ⟨o, ho⟩ := Option.isSome_iff_exists.1 hm
    rw [ho] at hs1
    obtain ⟨o', q1, _⟩ := Option.map_eq_some_iff.1 hs1
    obtain ⟨so, q2, q3⟩ := hn.parent _ _ (get_mem q1) ns n rfl
    have hs2 := hsame ns n
    simp only [get_of_mem hn.uniq q2] at hs2
    obtain ⟨so', q4, q5⟩ := Option.map_eq_some_iff.1 hs2.symm
    exact ⟨so', q4, q5.trans q3⟩
  · intro ns n o ho
    have := hf ns n o ho
    rw [h5] at ho
    exact (hsame ns).body (hsame (ns ++ [n])) (BodyOk.of_holes (hok.bodies ⟨ns, n⟩ o ho) this)
  · rw [h4]
    exact (hsame []).single hok.start

end Verif.Editor
