import Verif.Diagram.Scopes

/-
Properties of whole diagrams: C73.
-/
namespace Verif.Diagram

theorem Inv.within {reg : Registry} {d : Diagram} {onErr : Ref} {io : Io} {s : St} {max : Nat}
    {ord : Order} (inv : Inv reg d.templates onErr d.ops (builtins d.start io) [] s)
    (h : create reg io ord max d = .ok s) {o : Out} {r : Ref} (hm : (o, r) ∈ s.made)
    (hr : r.Scoped s o.scope) {l : Link} (hl : l ∈ s.links) (hlo : l.out = o) :
    l.Within o.scope ∨ d.ScopeEnd l.into := by
  obtain ⟨_, hne, h1⟩ := inv.link (create_edges h) hm hr hl hlo
  rcases h1 with h1 | ⟨u, hu, ⟨a, b, c, e, h2⟩, h3⟩
  · exact .inl ⟨hne, h1⟩
  · refine .inr ⟨u.ns, u.id, a, b, c, e, ?_, h3⟩
    have := inv.places u (by simpa using hu)
    rw [h2] at this
    exact this

/-- C73, the part that holds. When the build of a diagram succeeds, every operation has its input
and all its outputs in one scope, and whatever its outputs were connected to, converters in
between included, is in this scope too; except for an output that leads to the response or to a
stream of a scope, where a converter is created outside. -/
theorem C73_partial {reg : Registry} {io : Io} {ord : Order} {max : Nat} {d : Diagram} {s : St}
    (hd : d.Keyed) (hord : Drains ord) (h : create reg io ord max d = .ok s)
    {ns : List Name} {id : Name} {sch : Schema} (hat : d.Has ns id sch) :
    ∃ k, (sch.takesInput = true → ∃ t, s.c.targets.lookup (.named ns none id) = some t ∧
        t.conn.inScope = some k) ∧
      ∃ ms : List (Out × Ref), ms.Sublist s.made ∧
        ms.map (·.2) = sch.nexts.map (fun n => (Ref.ofNext n).inNs ns) ∧
        ∀ e, e ∈ ms → e.1.scope = k ∧
          ∀ l, l ∈ s.links → l.out = e.1 → l.Within k ∨ d.ScopeEnd l.into := by
  obtain ⟨inv, hp, _⟩ := create_inv hd hord h
  obtain ⟨u, hu, rfl, rfl, rfl⟩ := inv.all hat
  have hsc := inv.scope_of hu
  refine ⟨u.scope, ?_, ?_⟩
  · intro ht
    obtain ⟨t, h1, h2, h3⟩ := inv.ownTarget hu ht
    refine ⟨t, h1, ?_⟩
    have key : ∀ i, t.conn.inScope = some i → t.conn.inScope = some u.scope := by
      intro i hi
      rw [hi, Scoped.det inv ((inv.targetScope h1).1 i hi).1 hsc]
    cases hc : t.conn with
    | slot ty i cv => exact hc ▸ key i (by rw [hc]; rfl)
    | dispose => exact absurd hc h2
    | cancel i cv => exact hc ▸ key i (by rw [hc]; rfl)
    | redirect to seen => exact absurd hc (h3 _ _)
    | hop i o to x mate => exact hc ▸ key i (by rw [hc]; rfl)
  · obtain ⟨c, as, hb, ⟨ms, h1, h2, h3⟩, _⟩ := inv.did u hu
    obtain ⟨pre, h4, _⟩ := build_outs hb
    have h5 : ms.map (·.2) = pre ++ u.schema.nexts.map (fun n => (Ref.ofNext n).inNs u.ns) := by
      rw [← h4, ← h2, List.map_map]
      rfl
    obtain ⟨m1, m2, rfl, _, h6⟩ := List.map_eq_append_iff.1 h5
    refine ⟨m2, (List.sublist_append_right _ _).trans h1, h6, fun e he => ?_⟩
    have h7 : e.1.scope = u.scope := by
      have : born e ∈ as.filterMap Act.out? := by
        rw [← h2]
        exact List.mem_map.2 ⟨e, List.mem_append_right _ he, rfl⟩
      exact build_out_scope hb this
    refine ⟨h7, fun l hl hlo => ?_⟩
    rw [← h7]
    refine inv.within h (((List.sublist_append_right _ _).trans h1).subset he) ?_ hl hlo
    have h8 : e.2 ∈ m2.map (·.2) := List.mem_map.2 ⟨e, he, rfl⟩
    rw [h6] at h8
    obtain ⟨n, _, h8⟩ := List.mem_map.1 h8
    rw [← h8, h7]
    exact ofNext_scoped hsc n

/-- C73, the part that holds, for the request of the diagram: it is in the scope of the
workflow. -/
theorem C73_start_partial {reg : Registry} {io : Io} {ord : Order} {max : Nat} {d : Diagram}
    {s : St} (hd : d.Keyed) (hord : Drains ord) (h : create reg io ord max d = .ok s) :
    ∃ o : Out, o.scope = 0 ∧ (o, Ref.ofNext d.start) ∈ s.made ∧
      ∀ l, l ∈ s.links → l.out = o → l.Within 0 ∨ d.ScopeEnd l.into := by
  obtain ⟨inv, hp, _⟩ := create_inv hd hord h
  obtain ⟨ms, h1, h2, h3⟩ := inv.firstOuts
  have h4 : (builtins d.start io).filterMap Act.out? = [(Ref.ofNext d.start, io.request, 0)] := by
    simp only [builtins, List.cons_append, List.filterMap_cons, Act.out?, List.filterMap_append,
      List.filterMap_nil]
    rw [outs_none]
    · rfl
    · simp only [List.mem_map]
      rintro a ⟨_, _, rfl⟩
      rfl
  rw [h4] at h2
  obtain ⟨e, rest, rfl, h5, _⟩ := List.map_eq_cons_iff.1 h2
  simp only [born, Prod.mk.injEq] at h5
  obtain ⟨h5, _, h6⟩ := h5
  have he : (e.1, Ref.ofNext d.start) ∈ s.made := by
    rw [← h5]
    exact h1.subset (by simp)
  refine ⟨e.1, h6, he, fun l hl hlo => ?_⟩
  rw [← h6]
  refine inv.within h he ?_ hl hlo
  rw [h6]
  have := ofNext_scoped (s := s) .root d.start
  cases hs : d.start <;> rw [hs] at this <;> exact this

/-- C73, the part that holds, for a scope: its inside is a scope of its own; its request goes on
within the inside, its response within the outside. -/
theorem C73_scope_partial {reg : Registry} {io : Io} {ord : Order} {max : Nat} {d : Diagram}
    {s : St} (hd : d.Keyed) (hord : Drains ord) (h : create reg io ord max d = .ok s)
    {ns : List Name} {id : Name} {start next : Next} {streams : List (Name × Next)}
    {ops : List (Name × Schema)} (hat : d.Has ns id (.scope start next streams ops)) :
    ∃ inside outside t t', inside ≠ outside ∧ s.c.targets.lookup (.named ns none id) = some t ∧
      t.conn.inScope = some outside ∧
      s.c.targets.lookup (.terminate (ns ++ [id])) = some t' ∧ t'.conn.inScope = some inside ∧
      ∃ o o' : Out, o.scope = inside ∧ o'.scope = outside ∧
        (o, (Ref.ofNext start).inNs (ns ++ [id])) ∈ s.made ∧
        (o', (Ref.ofNext next).inNs ns) ∈ s.made ∧
        ∀ l, l ∈ s.links → (l.out = o → l.Within inside ∨ d.ScopeEnd l.into) ∧
          (l.out = o' → l.Within outside ∨ d.ScopeEnd l.into) := by
  obtain ⟨inv, hpend, hf⟩ := create_inv hd hord h
  have hops := create_hops h
  obtain ⟨u, hu, rfl, rfl, hsch⟩ := inv.all hat
  have hsc := inv.scope_of hu
  obtain ⟨c, as, hb, _, h2⟩ := inv.did u hu
  unfold build at hb
  simp only [hsch] at hb
  cases hb
  have me : intoRef u.ns (Ref.ofNext (.name u.id)) = .named u.ns none u.id := by
    simp [intoRef, Ref.ofNext, Ref.inNs]
  have end_ : intoRef u.ns (.terminate [u.id]) = .terminate (u.ns ++ [u.id]) := by
    simp [intoRef, Ref.inNs]
  obtain ⟨t, ht, _, hc⟩ := h2 (intoRef u.ns (Ref.ofNext (.name u.id))) _ _
    (List.mem_append_right _ List.mem_cons_self)
  obtain ⟨t', ht', _, hc'⟩ := h2 (intoRef u.ns (.terminate [u.id])) _ _
    (List.mem_append_right _ (List.mem_cons_of_mem _ List.mem_cons_self))
  have hin : Scoped s (u.ns ++ [u.id]) c.fresh := by
    rw [me] at ht
    exact .inScope hu hsch ht hc
  obtain ⟨cn, sc⟩ := t
  obtain ⟨cn', sc'⟩ := t'
  cases cn <;> simp only [Conn.core, reduceCtorEq] at hc
  rename_i i o to x mate
  cases cn' <;> simp only [Conn.core, reduceCtorEq] at hc'
  rename_i i' o' to' x' mate'
  simp only [Conn.hop.injEq, true_and] at hc hc'
  obtain ⟨rfl, rfl, rfl, rfl⟩ := hc
  obtain ⟨rfl, rfl, rfl, _⟩ := hc'
  have hf1 := List.all_eq_true.1 hf _ (mem_of_lookup ht)
  simp only [ht', Option.map_some, Option.getD_some, Conn.connected, Bool.and_eq_true,
    Option.isSome_iff_exists] at hf1
  obtain ⟨⟨⟨ty, cv⟩, rfl⟩, ⟨ty', cv'⟩, rfl⟩ := hf1
  obtain ⟨p, hp, _, hps⟩ := hops _ (mem_of_lookup ht)
  obtain ⟨q, hq, _, hqs⟩ := hops _ (mem_of_lookup ht')
  have he : intoChildRef u.ns u.id (Ref.ofNext start) = (Ref.ofNext start).inNs (u.ns ++ [u.id]) := by
    cases start <;> simp [intoChildRef, Ref.ofNext, Ref.inNs]
  rw [he] at hp
  rw [me] at ht
  rw [end_] at ht'
  have hne := inv.apart _ _ ht u.scope c.fresh _ none _ rfl
  refine ⟨c.fresh, u.scope, _, _, fun he => hne he.symm, ht, rfl, ht', rfl, p, q, hps, hqs, hp, hq, ?_⟩
  intro l hl
  refine ⟨fun hlo => ?_, fun hlo => ?_⟩
  · rw [← hps]
    refine inv.within h hp ?_ hl hlo
    rw [hps]
    exact ofNext_scoped hin start
  · rw [← hqs]
    refine inv.within h hq ?_ hl hlo
    rw [hqs]
    exact ofNext_scoped hsc next

end Verif.Diagram
