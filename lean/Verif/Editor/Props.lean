import Verif.Editor.Build
/-
C120: a diagram that is loaded into the editor and exported again is the same.
-/
namespace Verif.Editor

theorem hasEnd_of {reg : Registry} {d : Diagram} (h : Editable reg d) {ns : List Name} {n : Name}
    (hn : (opAt d.ops ns n).isSome) : (flatten [] d.ops).hasEnd ns = true := by
  rcases List.eq_nil_or_concat ns with rfl | ⟨r, s, rfl⟩
  · simp [Nodes.hasEnd]
  · rw [List.concat_eq_append] at hn ⊢
    obtain ⟨so, h1, h2⟩ := h.scopes r s n hn
    simp only [Nodes.hasEnd, Bool.or_eq_true, List.any_eq_true]
    refine .inr ⟨(⟨r, s⟩, so), ?_, by simp [Key.inside, h2]⟩
    exact (mem_flatten h.uniq [] _ _).2 ⟨r, rfl, h1⟩

/-- The edges of every operation can be made and restore it. -/
theorem piece_all {reg : Registry} {d : Diagram} (h : Editable reg d) {k : Key} {o : Op}
    (hm : (k, o) ∈ flatten [] d.ops) :
    Piece (flatten [] d.ops).kind (validEdge reg (flatten [] d.ops)) k
      (opEdges (flatten [] d.ops) k o.body) o.body.clear o.body := by
  have hg := get_of_mem (flatten_nodup h.uniq []) hm
  have ho := hg
  rw [get_flatten h.uniq] at ho
  refine piece_op (hasEnd_of h (n := k.name) (by rw [ho]; rfl)) hg ?_
  have := h.bodies _ _ _ ho
  have e1 : (fun n => (flatten [] d.ops).get ⟨k.ns, n⟩) = opAt d.ops k.ns := by
    funext n; exact get_flatten h.uniq _
  have e2 : (fun n => (flatten [] d.ops).get ⟨k.inside, n⟩) = opAt d.ops (k.ns ++ [k.name]) := by
    funext n; exact get_flatten h.uniq _
  rw [e1, e2]
  exact this

/-- The edges of a list of operations can be made, and exporting them restores these operations. -/
theorem sync_nodes {reg : Registry} {N : Nodes}
    (hp : ∀ k o, (k, o) ∈ N →
      Piece N.kind (validEdge reg N) k (opEdges N k o.body) o.body.clear o.body)
    (suf : Nodes) (hsuf : ∀ p ∈ suf, p ∈ N) (hns : (suf.map (·.1)).Nodup)
    (d : Draft) (hd : ∀ k o, (k, o) ∈ suf → d.nodes.get k = some { o with body := o.body.clear }) :
    ∃ es d', gather (fun (k, o) => opEdges N k o.body) suf = some es ∧
      es.filter (validEdge reg N) = es ∧ syncAll N.kind d es = some d' ∧ d'.start = d.start ∧
      d'.nodes.map (·.1) = d.nodes.map (·.1) ∧
      (∀ k o, (k, o) ∈ suf → d'.nodes.get k = some o) ∧
      ∀ k, k ∉ suf.map (·.1) → d'.nodes.get k = d.nodes.get k := by
  induction suf generalizing d with
  | nil => exact ⟨[], d, rfl, rfl, rfl, rfl, rfl, (fun _ _ h => nomatch h), fun _ _ => rfl⟩
  | cons p suf ih =>
    obtain ⟨k, o⟩ := p
    rw [List.map_cons, List.nodup_cons] at hns
    obtain ⟨es, h1, h2, h3, h4⟩ := hp k o (hsuf _ (List.mem_cons_self ..))
    obtain ⟨d1, h5, h6⟩ := syncAll_owned h2 (hd k o (List.mem_cons_self ..)) h4
    obtain ⟨es', d', g1, g2, g3, g4, g5, g6, g7⟩ := ih (fun p hp => hsuf p (List.mem_cons_of_mem _ hp))
      hns.2 d1 (fun k' o' hm => by
        have : k' ≠ k := fun e => hns.1 (List.mem_map.2 ⟨_, hm, e⟩)
        rw [h6.other k' this]
        exact hd k' o' (List.mem_cons_of_mem _ hm))
    refine ⟨es ++ es', d', ?_, ?_, ?_, ?_, ?_, ?_, ?_⟩
    · simp only [gather, h1, g1]
    · rw [List.filter_append, g2, List.filter_eq_self.2 h3]
    · rw [syncAll_append, h5]; exact g3
    · rw [g4, h6.start]
    · rw [g5, h6.keys]
    · intro k' o' hm
      rcases List.mem_cons.1 hm with hm | hm
      · cases hm
        rw [g7 k hns.1, h6.self]
      · exact g6 k' o' hm
    · intro k' hk'
      simp only [List.map_cons, List.mem_cons, not_or] at hk'
      rw [g7 k' hk'.2, h6.other k' hk'.1]

/-- The edge from the start of the diagram restores where it starts. -/
theorem sync_root {reg : Registry} {d : Diagram} (h : Editable reg d) (N : Nodes) :
    ∃ es, rootEdge (flatten [] d.ops) d.start = es ∧
      es.filter (validEdge reg (flatten [] d.ops)) = es ∧
      syncAll (flatten [] d.ops).kind ⟨.dispose, N⟩ es = some ⟨d.start, N⟩ := by
  refine ⟨_, rfl, ?_⟩
  have hs := h.start
  cases ht : d.start with
  | op n =>
    rw [ht] at hs
    rcases hs with hs | hs
    · have hg : ((flatten [] d.ops).get ⟨[], n⟩).isSome := by rw [get_flatten h.uniq]; exact hs
      refine ⟨?_, ?_⟩
      · simp [rootEdge, hg, validEdge]
      · simp [rootEdge, hg, syncAll, syncEdge, EdgeKind.buffer?, targetNext, Nodes.kind]
    · cases hs
  | terminate => exact ⟨rfl, rfl⟩
  | dispose => exact ⟨rfl, rfl⟩
  | cancel => rw [ht] at hs; rcases hs with hs | hs <;> cases hs
  | inner a b => rw [ht] at hs; rcases hs with hs | hs <;> cases hs

/-- **C120** For every registry and every diagram that is `Editable`: it can be loaded into the
editor, the graph can be exported, and the exported diagram is the same as the one that was loaded.

Missing from the full claim are the diagrams that are not `Editable`; the theorems `C120_…_violated`
show what the editor does to such diagrams. -/
theorem C120_round_trip_partial (reg : Registry) (d : Diagram) (h : Editable reg d) :
    ∃ d', roundTrip reg d = some d' ∧ SameDiagram d d' := by
  have hn := flatten_nodup h.uniq []
  let N := flatten [] d.ops
  let C : Nodes := N.map fun (k, o) => (k, { o with body := o.body.clear })
  obtain ⟨r, hr1, hr2, hr3⟩ := sync_root h C
  obtain ⟨es, d1, h1, h2, h3, h4, h5, h6, h7⟩ := sync_nodes (fun k o hm => piece_all h hm) N
    (fun _ h => h) hn ⟨d.start, C⟩ (fun k o hm => by
      have := get_map_body N Body.clear k
      rw [get_of_mem hn hm] at this
      exact this)
  have hnodes : d1.nodes = N := by
    refine nodes_ext hn ?_ ?_
    · rw [h5]
      show (N.map fun (k, o) => (k, { o with body := o.body.clear })).map (·.1) = _
      rw [List.map_map]
      rfl
    · intro k hk
      obtain ⟨⟨k', o⟩, hm, e⟩ := List.mem_map.1 hk
      simp only at e
      subst e
      rw [h6 _ _ hm]
      exact (get_of_mem hn hm).symm
  have hperm := sortByDepth_perm N
  have hn' : ((sortByDepth N).map (·.1)).Nodup := (hperm.map _).nodup_iff.2 hn
  obtain ⟨f, h8, h9⟩ := build_ok hn' (sortByDepth_sorted N) (by
    intro k o hm r s rest hk
    obtain ⟨r', e1, e2⟩ := (mem_flatten h.uniq [] k o).1 (hperm.mem_iff.1 hm)
    rw [List.nil_append] at e1
    subst e1
    rw [hk] at e2
    obtain ⟨so, e3, e4⟩ := h.in_scopes rest r s k.name (by rw [e2]; rfl)
    exact ⟨so, hperm.mem_iff.2 ((mem_flatten h.uniq [] _ _).2 ⟨r, rfl, e3⟩), e4⟩)
  refine ⟨⟨d.start, f, d.templates, none, none⟩, ?_, rfl, ?_, rfl, h.defaultTrace.symm,
    h.onImplicitError.symm⟩
  · have hl : load d = some ⟨N, r ++ es⟩ := by
      simp only [load]
      show Option.map _ (gather _ N) = _
      rw [h1, ← hr1]
      rfl
    rw [roundTrip, hl]
    simp only [Option.bind_some, export_]
    rw [List.filter_append, hr2, h2, syncAll_append]
    show ((Option.bind (syncAll N.kind ⟨.dispose, C⟩ r) _).bind _) = _
    rw [hr3]
    simp only [Option.bind_some]
    rw [h3]
    simp only [Option.bind_some, hnodes, h8, Option.map_some, h4]
  · intro ns n
    rw [h9, ← get_flatten h.uniq ⟨ns, n⟩]
    apply Option.ext
    intro o
    rw [get_eq_iff hn', get_eq_iff hn]
    exact hperm.mem_iff

/-- **C120** Whatever the diagram, what is exported has no `default_trace` and no
`on_implicit_error`: a diagram with one of these is never the same after a round trip. -/
theorem C120_settings_violated (reg : Registry) (d : Diagram)
    (h : d.defaultTrace ≠ none ∨ d.onImplicitError ≠ none) :
    ∀ d', roundTrip reg d = some d' → ¬ SameDiagram d d' := by
  intro d' hd hs
  have : d'.defaultTrace = none ∧ d'.onImplicitError = none := by
    simp only [roundTrip, export_, Option.bind_eq_some_iff, Option.map_eq_some_iff] at hd
    obtain ⟨_, _, _, _, _, _, rfl⟩ := hd
    exact ⟨rfl, rfl⟩
  rcases h with h | h
  · exact h (hs.defaultTrace ▸ this.1)
  · exact h (hs.onImplicitError ▸ this.2)

end Verif.Editor
