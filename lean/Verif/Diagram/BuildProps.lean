import Verif.Diagram.Hops
import Verif.Diagram.Ends

/-
Properties of whole diagrams: C44, C69, C70, C71 and C72.
-/
namespace Verif.Diagram

/-! ### C69: every operation is built, once -/

/-- C69. When the build of a diagram succeeds, the operations that were built are exactly the
operations of the diagram, those inside of its sections and scopes included, ... -/
theorem C69_exactly {reg : Registry} {io : Io} {ord : Order} {max : Nat} {d : Diagram} {s : St}
    (hd : d.Keyed) (hord : Drains ord) (h : create reg io ord max d = .ok s)
    (ns : List Name) (id : Name) (sch : Schema) :
    d.Has ns id sch ↔ ∃ u, u ∈ s.done ∧ u.ns = ns ∧ u.id = id ∧ u.schema = sch := by
  obtain ⟨inv, _⟩ := create_inv hd hord h
  refine ⟨inv.all, ?_⟩
  rintro ⟨u, hu, rfl, rfl, rfl⟩
  exact inv.places u (by simpa using hu)

/-- C69. ... and no operation was built twice. -/
theorem C69_once {reg : Registry} {io : Io} {ord : Order} {max : Nat} {d : Diagram} {s : St}
    (hd : d.Keyed) (hord : Drains ord) (h : create reg io ord max d = .ok s) :
    (s.done.map fun u => (u.ns, u.id)).Nodup := by
  obtain ⟨inv, _⟩ := create_inv hd hord h
  simpa using inv.nodup

/-! ### C44: outputs are connected -/

/-- C44. When the build of a diagram succeeds, the outputs are distinct, and each of them is
connected, disposed of or lost, one of these and only once. -/
theorem C44_once {reg : Registry} {io : Io} {ord : Order} {max : Nat} {d : Diagram} {s : St}
    (hd : d.Keyed) (hord : Drains ord) (h : create reg io ord max d = .ok s) :
    (s.made.map (·.1.id)).Nodup ∧
    (s.made.map (·.1)).Perm
      (s.links.map (·.out) ++ s.disposed.map (·.1) ++ s.lost.map (·.1)) := by
  obtain ⟨inv, hp, _⟩ := create_inv hd hord h
  obtain ⟨led, _⟩ := inv.ok
  rw [hp] at led
  refine ⟨led.nodup, ?_⟩
  rw [List.append_assoc]
  exact led.perm

/-- What became of the outputs that the calls of an operation made. -/
theorem Inv.outputs {reg : Registry} {ts : List (Name × Template)} {onErr : Ref}
    {ops : List (Name × Schema)} {init : List Act} {todo : List UOp} {s : St}
    (inv : Inv reg ts onErr ops init todo s) (hp : flat s.c.outs = []) {e : Out × Ref}
    (he : e ∈ s.made) (hs : Stay s.c s.lost e) :
    Connected s e.1 e.2 ∨ Disposed s e.1 e.2 ∨
      ((∃ r, PassesTo s.c.targets e.2 r) ∧ Lost s e.1 e.2) := by
  rcases inv.ok.settled hp (o := e.1) (r := e.2) he with h1 | h1 | h1
  · exact .inl h1
  · exact .inr (.inl h1)
  · have h2 := h1
    obtain ⟨r, _, h2, _⟩ := h2
    exact .inr (.inr ⟨hs.lost r h2, h1⟩)

/-- C44, the part that holds. When the build of a diagram succeeds, every operation of the
diagram has one output for each target it names, in this order, and each of these outputs is
connected to the input that the target leads to through redirections, or is disposed of since
the target leads to `dispose`; or it is lost, which only happens when the target that it names
is a redirection (a slot of a section, or a stream out). -/
theorem C44_partial {reg : Registry} {io : Io} {ord : Order} {max : Nat} {d : Diagram} {s : St}
    (hd : d.Keyed) (hord : Drains ord) (h : create reg io ord max d = .ok s)
    {ns : List Name} {id : Name} {sch : Schema} (hat : d.Has ns id sch) :
    ∃ ms : List (Out × Ref), ms.Sublist s.made ∧
      ms.map (·.2) = sch.nexts.map (fun n => (Ref.ofNext n).inNs ns) ∧
      ∀ e, e ∈ ms → Connected s e.1 e.2 ∨ Disposed s e.1 e.2 ∨
        ((∃ r, PassesTo s.c.targets e.2 r) ∧ Lost s e.1 e.2) := by
  obtain ⟨inv, hp, _⟩ := create_inv hd hord h
  obtain ⟨u, hu, rfl, rfl, rfl⟩ := inv.all hat
  obtain ⟨c, as, hb, ⟨ms, h1, h2, h3⟩, _⟩ := inv.did u hu
  obtain ⟨pre, h4, _⟩ := build_outs hb
  have h5 : ms.map (·.2) = pre ++ u.schema.nexts.map (fun n => (Ref.ofNext n).inNs u.ns) := by
    rw [← h4, ← h2, List.map_map]
    rfl
  obtain ⟨m1, m2, rfl, _, h6⟩ := List.map_eq_append_iff.1 h5
  refine ⟨m2, (List.sublist_append_right _ _).trans h1, h6, fun e he => ?_⟩
  exact inv.outputs hp (((List.sublist_append_right _ _).trans h1).subset he)
    (h3 e (List.mem_append_right _ he))

/-- C44. The request of the diagram is connected to the input that the start leads to, or
disposed of, or lost in a redirection. -/
theorem C44_start {reg : Registry} {io : Io} {ord : Order} {max : Nat} {d : Diagram} {s : St}
    (hd : d.Keyed) (hord : Drains ord) (h : create reg io ord max d = .ok s) :
    ∃ o : Out, o.ty = io.request ∧ (o, Ref.ofNext d.start) ∈ s.made ∧
      (Connected s o (Ref.ofNext d.start) ∨ Disposed s o (Ref.ofNext d.start) ∨
        ((∃ r, PassesTo s.c.targets (Ref.ofNext d.start) r) ∧ Lost s o (Ref.ofNext d.start))) := by
  obtain ⟨inv, hp, _⟩ := create_inv hd hord h
  obtain ⟨ms, h1, h2, h3⟩ := inv.firstOuts
  have h4 : (builtins d.start io).filterMap Act.out? = [(Ref.ofNext d.start, io.request, 0)] := by
    simp only [builtins, List.cons_append, List.filterMap_cons, Act.out?, List.filterMap_append,
      List.filterMap_nil]
    rw [outs_none]
    · rfl
    · simp only [List.mem_map]
      rintro a ⟨_, _, rfl⟩
      rfl
  rw [h4] at h2
  obtain ⟨e, rest, rfl, h5, _⟩ := List.map_eq_cons_iff.1 h2
  simp only [born, Prod.mk.injEq] at h5
  obtain ⟨h5, h6, _⟩ := h5
  have he : e ∈ s.made := h1.subset (by simp)
  have := inv.outputs hp he (h3 e (by simp))
  rw [h5] at this
  refine ⟨e.1, h6, ?_, this⟩
  rw [← h5]
  exact he

theorem PassesTo.of_target {targets : List (Ref × Target)} {r : Ref} {t : Target}
    (hl : targets.lookup r = some t) (ht : ∀ to seen, t.conn ≠ .redirect to seen) (r' : Ref) :
    ¬ PassesTo targets r r' := by
  rintro ⟨seen, scope, h⟩
  rw [hl] at h
  cases h
  exact ht _ _ rfl

theorem Star.stuck {α : Type} {R : α → α → Prop} {a b : α} (h : Star R a b)
    (hs : ∀ c, ¬ R a c) : b = a := by
  induction h with
  | refl => rfl
  | tail _ r ih =>
    subst ih
    exact absurd r (hs _)

/-- The target of an operation that takes input. -/
theorem Inv.ownTarget {reg : Registry} {ts : List (Name × Template)} {onErr : Ref}
    {ops : List (Name × Schema)} {init : List Act} {todo : List UOp} {s : St}
    (inv : Inv reg ts onErr ops init todo s) {u : UOp} (hu : u ∈ s.done)
    (ht : u.schema.takesInput = true) :
    ∃ t, s.c.targets.lookup (.named u.ns none u.id) = some t ∧ t.conn ≠ .dispose ∧
      ∀ to seen, t.conn ≠ .redirect to seen := by
  obtain ⟨c, as, hb, _, h2⟩ := inv.did u hu
  obtain ⟨conn, h3, h4, h5⟩ := build_own hb ht
  obtain ⟨t, h6, _, h7⟩ := h2 _ _ _ h3
  refine ⟨t, h6, ?_, ?_⟩
  · intro h8
    rw [h8] at h7
    exact h4 (core_dispose h7.symm)
  · intro to seen h8
    rw [h8] at h7
    obtain ⟨seen', h9⟩ := core_redirect h7.symm
    exact h5 _ _ h9

/-- C44. When an operation names another operation of the same section or scope that takes
input, its output is connected to the input of that very operation. -/
theorem C44_direct {reg : Registry} {io : Io} {ord : Order} {max : Nat} {d : Diagram} {s : St}
    (hd : d.Keyed) (hord : Drains ord) (h : create reg io ord max d = .ok s)
    {ns : List Name} {id id' : Name} {sch sch' : Schema} (hat : d.Has ns id sch)
    (hat' : d.Has ns id' sch') (hn : .name id' ∈ sch.nexts) (ht : sch'.takesInput = true) :
    ∃ l, l ∈ s.links ∧ (l.out, .named ns none id') ∈ s.made ∧ l.into = .named ns none id' := by
  obtain ⟨ms, h1, h2, h3⟩ := C44_partial hd hord h hat
  obtain ⟨inv, hp, _⟩ := create_inv hd hord h
  obtain ⟨u', hu', rfl, rfl, rfl⟩ := inv.all hat'
  obtain ⟨t, h4, h5, h6⟩ := inv.ownTarget hu' ht
  have hr : (Ref.ofNext (.name u'.id)).inNs u'.ns = .named u'.ns none u'.id := by
    simp [Ref.ofNext, Ref.inNs]
  have hm : Ref.named u'.ns none u'.id ∈ ms.map (·.2) := by
    rw [h2, ← hr]
    exact List.mem_map.2 ⟨_, hn, rfl⟩
  obtain ⟨e, he, hr'⟩ := List.mem_map.1 hm
  have stuck : ∀ c, ¬ PassesTo s.c.targets (.named u'.ns none u'.id) c :=
    fun c => PassesTo.of_target h4 h6 c
  have h7 := h3 e he
  rw [hr'] at h7
  rcases h7 with ⟨l, t', h8, h9, h10, _⟩ | ⟨r, sc, _, h8, h9⟩ | ⟨⟨r, h8⟩, _⟩
  · refine ⟨l, h8, ?_, h10.stuck stuck⟩
    rw [h9, ← hr']
    exact h1.subset he
  · rw [h8.stuck stuck, h4] at h9
    cases h9
    exact absurd rfl h5
  · exact absurd h8 (stuck r)

/-- C44. The slots of a section pass their outputs on: from the outside to what the section
exposes, from the inside to what is connected outside (or to `dispose`). -/
theorem C44_section {reg : Registry} {io : Io} {ord : Order} {max : Nat} {d : Diagram} {s : St}
    (hd : d.Keyed) (hord : Drains ord) (h : create reg io ord max d = .ok s)
    {ns : List Name} {id t : Name} {connect : List (Name × Next)} {sec : Template}
    (hat : d.Has ns id (.template t connect)) (hl : d.templates.lookup t = some sec) :
    (∀ slot n, (slot, n) ∈ sec.inputs ++ sec.buffers →
      PassesTo s.c.targets (.named ns (some id) slot) ((Ref.ofNext n).inNs (ns ++ [id]))) ∧
    (∀ out, out ∈ sec.outputs →
      PassesTo s.c.targets (.named (ns ++ [id]) none out)
        ((Ref.ofNext ((connect.lookup out).getD .dispose)).inNs ns)) ∧
    PassesTo s.c.targets (.terminate (ns ++ [id])) (.terminate ns) := by
  obtain ⟨inv, hp, _⟩ := create_inv hd hord h
  obtain ⟨u, hu, rfl, rfl, hsch⟩ := inv.all hat
  obtain ⟨c, as, hb, _, h2⟩ := inv.did u hu
  have key : ∀ r to sc, .target r (.redirect to []) sc ∈ as → PassesTo s.c.targets r to := by
    intro r to sc hm
    obtain ⟨x, h3, _, h4⟩ := h2 _ _ _ hm
    obtain ⟨seen, h5⟩ := core_redirect h4
    refine ⟨seen, x.scope, ?_⟩
    rw [← h5]
    exact h3
  unfold build at hb
  simp only [hsch, hl] at hb
  split at hb
  · cases hb
    refine ⟨?_, ?_, ?_⟩
    · intro slot n hm
      refine key _ _ u.scope ?_
      simp only [List.mem_append, List.mem_flatMap, redirectInput, redirectBuffer]
      rcases List.mem_append.1 hm with hm | hm
      · exact .inl (.inl (.inl (.inr ⟨_, hm, by simp [exposedAndInner]⟩)))
      · exact .inl (.inl (.inr ⟨_, hm, by simp [exposedAndInner]⟩))
    · intro out hm
      refine key _ _ u.scope ?_
      refine List.mem_append_left _ (List.mem_append_right _ ?_)
      refine List.mem_map.2 ⟨out, hm, ?_⟩
      simp [redirectOutput, outputSlot, Ref.inNs, intoRef]
    · refine key _ _ u.scope (List.mem_append_right _ ?_)
      simp [intoRef, Ref.inNs, Ref.ofNext]
  · cases hb

/-- C44. The request and the response of a scope were connected, and passed on: to its start
inside of the scope, and to its next operation outside. -/
theorem C44_scope {reg : Registry} {io : Io} {ord : Order} {max : Nat} {d : Diagram} {s : St}
    (hd : d.Keyed) (hord : Drains ord) (h : create reg io ord max d = .ok s)
    {ns : List Name} {id : Name} {start next : Next} {streams : List (Name × Next)}
    {ops : List (Name × Schema)} (hat : d.Has ns id (.scope start next streams ops)) :
    ∃ o o' : Out, (o, (Ref.ofNext start).inNs (ns ++ [id])) ∈ s.made ∧
      (o', (Ref.ofNext next).inNs ns) ∈ s.made ∧
      ∀ x r, (x, r) ∈ [(o, (Ref.ofNext start).inNs (ns ++ [id])), (o', (Ref.ofNext next).inNs ns)] →
        Connected s x r ∨ Disposed s x r ∨ Lost s x r := by
  obtain ⟨inv, hpend, hf⟩ := create_inv hd hord h
  have hops := create_hops h
  obtain ⟨u, hu, rfl, rfl, hsch⟩ := inv.all hat
  obtain ⟨c, as, hb, _, h2⟩ := inv.did u hu
  unfold build at hb
  simp only [hsch] at hb
  cases hb
  obtain ⟨t, ht, _, hc⟩ := h2 (intoRef u.ns (Ref.ofNext (.name u.id))) _ _
    (List.mem_append_right _ List.mem_cons_self)
  obtain ⟨t', ht', _, hc'⟩ := h2 (intoRef u.ns (.terminate [u.id])) _ _
    (List.mem_append_right _ (List.mem_cons_of_mem _ List.mem_cons_self))
  obtain ⟨cn, sc⟩ := t
  obtain ⟨cn', sc'⟩ := t'
  cases cn <;> simp only [Conn.core, reduceCtorEq] at hc
  rename_i i o to x mate
  cases cn' <;> simp only [Conn.core, reduceCtorEq] at hc'
  rename_i i' o' to' x' mate'
  simp only [Conn.hop.injEq, true_and] at hc hc'
  obtain ⟨_, _, rfl, rfl⟩ := hc
  obtain ⟨_, _, rfl, _⟩ := hc'
  have hf1 := List.all_eq_true.1 hf _ (mem_of_lookup ht)
  simp only [ht', Option.map_some, Option.getD_some, Conn.connected, Bool.and_eq_true,
    Option.isSome_iff_exists] at hf1
  obtain ⟨⟨⟨ty, cv⟩, rfl⟩, ⟨ty', cv'⟩, rfl⟩ := hf1
  obtain ⟨p, hp, _⟩ := hops _ (mem_of_lookup ht)
  obtain ⟨q, hq, _⟩ := hops _ (mem_of_lookup ht')
  have he : intoChildRef u.ns u.id (Ref.ofNext start) = (Ref.ofNext start).inNs (u.ns ++ [u.id]) := by
    cases start <;> simp [intoChildRef, Ref.ofNext, Ref.inNs]
  rw [he] at hp
  refine ⟨p, q, hp, hq, ?_⟩
  intro x r hx
  simp only [List.mem_cons, Prod.mk.injEq, List.not_mem_nil, or_false] at hx
  rcases hx with ⟨rfl, rfl⟩ | ⟨rfl, rfl⟩
  · exact inv.ok.settled hpend hp
  · exact inv.ok.settled hpend hq

/-! ### C72: `cancel` inside of a section or a scope -/

/-- There is no target for the cancellation of anything but the whole workflow. -/
theorem Inv.cancelTarget {reg : Registry} {ts : List (Name × Template)} {onErr : Ref}
    {ops : List (Name × Schema)} {start : Next} {io : Io} {todo : List UOp} {s : St}
    (inv : Inv reg ts onErr ops (builtins start io) todo s) {ns : List Name} (hns : ns ≠ []) :
    s.c.targets.lookup (.cancel ns) = none := by
  cases hl : s.c.targets.lookup (.cancel ns) with
  | none => rfl
  | some t =>
    rcases inv.source _ _ hl with ⟨conn, sc, hm⟩ | ⟨u, hu, c, as, hb, ⟨conn, sc, hm⟩, _⟩
    · simp only [builtins, List.cons_append, List.mem_cons, List.mem_append, List.mem_map,
        List.not_mem_nil, or_false, reduceCtorEq, and_false, exists_false, false_or,
        Act.target.injEq, false_and] at hm
      simp only [Ref.cancel.injEq] at hm
      exact absurd hm.1 hns
    · rcases build_targets hb hm with ⟨h, _⟩ | ⟨⟨_, h⟩, _⟩ | ⟨⟨_, h⟩, _⟩ | ⟨h, _⟩ | ⟨_, h, _⟩ <;>
        cases h

/-- An output that is settled leads to a target. -/
theorem settled_target {s : St} {o : Out} {r : Ref}
    (h : Connected s o r ∨ Disposed s o r ∨ Lost s o r) : ∃ t, s.c.targets.lookup r = some t := by
  have key : ∀ r', Star (PassesTo s.c.targets) r r' → (∃ t, s.c.targets.lookup r' = some t) →
      ∃ t, s.c.targets.lookup r = some t := by
    intro r' h
    induction h with
    | refl => exact fun h => h
    | tail _ hr ih =>
      intro _
      obtain ⟨seen, sc, hr⟩ := hr
      exact ih ⟨_, hr⟩
  rcases h with ⟨l, t, _, _, h1, h2, _⟩ | ⟨r', sc, _, h1, h2⟩ | ⟨r', t, _, h1, h2⟩
  · exact key _ h1 ⟨t, h2⟩
  · exact key _ h1 ⟨_, h2⟩
  · exact key _ h1 ⟨t, h2⟩

/-- C72, violated: a diagram in which an operation inside of a section or a scope names the
builtin `cancel` cannot be built at all. -/
theorem C72_cancel_violated {reg : Registry} {io : Io} {ord : Order} {max : Nat} {d : Diagram}
    (hd : d.Keyed) (hord : Drains ord) {ns : List Name} {id : Name} {sch : Schema}
    (hat : d.Has ns id sch) (hns : ns ≠ []) (hn : .cancel ∈ sch.nexts) (s : St) :
    create reg io ord max d ≠ .ok s := by
  intro h
  obtain ⟨inv, hp, _⟩ := create_inv hd hord h
  obtain ⟨ms, h1, h2, h3⟩ := C44_partial hd hord h hat
  have hm : Ref.cancel ns ∈ ms.map (·.2) := by
    rw [h2]
    exact List.mem_map.2 ⟨_, hn, by simp [Ref.ofNext, Ref.inNs]⟩
  obtain ⟨e, he, hr⟩ := List.mem_map.1 hm
  have h4 : ∃ t, s.c.targets.lookup e.2 = some t := by
    rcases h3 e he with h5 | h5 | ⟨_, h5⟩
    · exact settled_target (.inl h5)
    · exact settled_target (.inr (.inl h5))
    · exact settled_target (.inr (.inr h5))
  obtain ⟨t, h4⟩ := h4
  rw [hr, inv.cancelTarget hns] at h4
  cases h4

/-- C72, violated: a transform inside of a section or a scope cannot be built, when neither it
nor the diagram has a target for its errors. -/
theorem C72_transform_violated {reg : Registry} {io : Io} {ord : Order} {max : Nat} {d : Diagram}
    (hd : d.Keyed) (hord : Drains ord) {ns : List Name} {id : Name} {next : Next}
    (hat : d.Has ns id (.transform next none)) (hns : ns ≠ []) (he : d.onErr = none) (s : St) :
    create reg io ord max d ≠ .ok s := by
  intro h
  obtain ⟨inv, hp, _⟩ := create_inv hd hord h
  obtain ⟨u, hu, rfl, rfl, hsch⟩ := inv.all hat
  obtain ⟨c, as, hb, ⟨ms, h1, h2, h3⟩, _⟩ := inv.did u hu
  obtain ⟨pre, h4, h5⟩ := build_outs hb
  have h6 := h5 _ _ hsch
  have h7 : ms.map (·.2) = pre ++ u.schema.nexts.map (fun n => (Ref.ofNext n).inNs u.ns) := by
    rw [← h4, ← h2, List.map_map]
    rfl
  have hm : Ref.cancel u.ns ∈ ms.map (·.2) := by
    rw [h7, h6]
    simp [Diagram.errRef, he, intoRef, Ref.inNs]
  obtain ⟨e, hem, hr⟩ := List.mem_map.1 hm
  obtain ⟨t, h8⟩ := settled_target (inv.ok.settled hp (o := e.1) (r := e.2) (h1.subset hem))
  rw [hr, inv.cancelTarget hns] at h8
  cases h8

/-- C72, violated: the target that a transform inside of a section or a scope names for its
errors is resolved twice. If there is no section or scope at the doubled path, the diagram
cannot be built. -/
theorem C72_error_violated {reg : Registry} {io : Io} {ord : Order} {max : Nat} {d : Diagram}
    (hd : d.Keyed) (hord : Drains ord) {ns : List Name} {id err : Name} {next : Next}
    (hat : d.Has ns id (.transform next (some (.name err)))) (hns : ns ≠ [])
    (hno : ∀ path name sch, ns ++ ns = path ++ [name] → ¬ d.Has path name sch) (s : St) :
    create reg io ord max d ≠ .ok s := by
  intro h
  obtain ⟨inv, hp, _⟩ := create_inv hd hord h
  obtain ⟨u, hu, rfl, rfl, hsch⟩ := inv.all hat
  obtain ⟨c, as, hb, ⟨ms, h1, h2, h3⟩, _⟩ := inv.did u hu
  obtain ⟨pre, h4, h5⟩ := build_outs hb
  have h6 := h5 _ _ hsch
  have h7 : ms.map (·.2) = pre ++ u.schema.nexts.map (fun n => (Ref.ofNext n).inNs u.ns) := by
    rw [← h4, ← h2, List.map_map]
    rfl
  have hm : Ref.named (u.ns ++ u.ns) none err ∈ ms.map (·.2) := by
    rw [h7, h6]
    simp [intoRef, Ref.inNs, Ref.ofNext]
  obtain ⟨e, hem, hr⟩ := List.mem_map.1 hm
  obtain ⟨t, h8⟩ := settled_target (inv.ok.settled hp (o := e.1) (r := e.2) (h1.subset hem))
  rw [hr] at h8
  rcases inv.source _ _ h8 with ⟨conn, sc, hm⟩ | ⟨v, hv, c', as', hb', ⟨conn, sc, hm⟩, _⟩
  · simp [builtins] at hm
  · rcases build_targets hb' hm with ⟨g, _⟩ | ⟨⟨_, g⟩, _⟩ | ⟨⟨_, g⟩, _⟩ | ⟨g, _⟩ | ⟨_, g, _⟩ <;>
      simp only [Ref.named.injEq, reduceCtorEq, false_and, and_false, true_and] at g
    · rcases inv.parent v (by simpa using hv) with ⟨g1, _⟩ | ⟨w, hw, g1, _⟩
      · have g2 := g.1
        rw [g1, List.append_eq_nil_iff] at g2
        exact hns g2.1
      · exact hno w.ns w.id w.schema (g.1.trans g1) (inv.places w (by simpa using hw))
    · exact hno v.ns v.id v.schema g.1 (inv.places v (by simpa using hv))

/-! ### C71: building ends -/

/-- C71. Building a diagram always ends, with a workflow or with an error, after at most `max`
rounds; the searches that follow redirections end too. -/
theorem C71_ends (reg : Registry) (io : Io) (ord : Order) (max : Nat) (d : Diagram) :
    create reg io ord max d ≠ .error .fuel := by
  intro h
  simp only [create] at h
  split at h
  · rename_i e he
    cases h
    exact validateUsage_ends he
  · split at h
    · rename_i e he
      cases h
      exact acts_ends he
    · simp only [run] at h
      split at h
      · rename_i e he
        cases h
        exact outer_ends (Nat.lt_succ_self _) he
      · split at h <;> cases h

end Verif.Diagram
