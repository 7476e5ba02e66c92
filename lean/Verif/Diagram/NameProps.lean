import Verif.Diagram.TypeProps
import Verif.Diagram.Props

/-
Properties of whole diagrams: C77, and C46 for whole diagrams.
-/
namespace Verif.Diagram

/-- The targets and buffers that a section puts in place. -/
theorem build_section {reg : Registry} {ts : List (Name × Template)} {onErr : Ref} {u : UOp}
    {c : Cons} {as : List Act} (h : build reg ts onErr u c = .ok (as, .finished))
    {t : Name} {con : List (Name × Next)} (hsch : u.schema = .template t con) :
    ∃ tmpl, ts.lookup t = some tmpl ∧
      (∀ slot conn sc, .target (.named u.ns (some u.id) slot) conn sc ∈ as →
        ∃ n, (slot, n) ∈ tmpl.inputs ++ tmpl.buffers) ∧
      (∀ out conn sc, .target (.named (u.ns ++ [u.id]) none out) conn sc ∈ as →
        out ∈ tmpl.outputs) ∧
      (∀ r b, .buffer r b ∈ as → ∃ slot n, (slot, n) ∈ tmpl.buffers ∧
        r = .named u.ns (some u.id) slot) ∧
      ∀ e, e ∈ con → e.1 ∈ tmpl.outputs := by
  unfold build at h
  simp only [hsch] at h
  split at h
  · cases h
  · rename_i tmpl hl
    split at h
    · rename_i hcon
      cases h
      refine ⟨tmpl, hl, ?_, ?_, ?_, ?_⟩
      · intro slot conn sc hm
        simp only [List.mem_append, List.mem_map, List.mem_flatMap, redirectInput, redirectBuffer,
          redirectOutput, exposedAndInner, outputSlot, List.mem_cons, List.not_mem_nil, or_false,
          reduceCtorEq, and_false, exists_false, false_or, Act.target.injEq, Ref.inNs,
          Ref.named.injEq, true_and, false_and, intoRef] at hm
        rcases hm with ⟨e, he, h1, _⟩ | ⟨e, he, h1, _⟩
        · exact ⟨e.2, List.mem_append_left _ (by rw [h1]; exact he)⟩
        · exact ⟨e.2, List.mem_append_right _ (by rw [h1]; exact he)⟩
      · intro out conn sc hm
        simp only [List.mem_append, List.mem_map, List.mem_flatMap, redirectInput, redirectBuffer,
          redirectOutput, exposedAndInner, outputSlot, List.mem_cons, List.not_mem_nil, or_false,
          reduceCtorEq, and_false, exists_false, false_or, Act.target.injEq, Ref.inNs,
          Ref.named.injEq, true_and, false_and, intoRef] at hm
        obtain ⟨e, he, h1, _⟩ := hm
        rw [← h1]
        exact he
      · intro r b hm
        simp only [List.mem_append, List.mem_map, List.mem_flatMap, redirectInput, redirectBuffer,
          redirectOutput, exposedAndInner, List.mem_cons, List.not_mem_nil, or_false,
          reduceCtorEq, and_false, exists_false, false_or, Act.buffer.injEq] at hm
        obtain ⟨e, he, h1, _⟩ := hm
        exact ⟨e.1, e.2, he, h1⟩
      · intro e he
        have := List.all_eq_true.1 hcon e he
        simpa using this
    · cases h

theorem Inv.resolves {reg : Registry} {d : Diagram} {onErr : Ref} {io : Io} {s : St}
    (inv : Inv reg d.templates onErr d.ops (builtins d.start io) [] s) {ns : List Name} {n : Next}
    {t : Target} (hl : s.c.targets.lookup ((Ref.ofNext n).inNs ns) = some t) :
    d.Resolves ns n := by
  rcases inv.source _ _ hl with ⟨conn, sc, hm⟩ | ⟨u, hu, c, as, hb, ⟨conn, sc, hm⟩, _⟩
  · cases n with
    | name x => simp [builtins, Ref.ofNext, Ref.inNs] at hm
    | exposed a b => simp [builtins, Ref.ofNext, Ref.inNs] at hm
    | terminate => trivial
    | dispose => trivial
    | cancel =>
      simp only [builtins, List.cons_append, List.mem_cons, List.mem_append, List.mem_map,
        List.not_mem_nil, or_false, reduceCtorEq, and_false, exists_false, false_or,
        Act.target.injEq, false_and, Ref.ofNext, Ref.inNs, List.append_nil,
        Ref.cancel.injEq] at hm
      exact hm.1
  · have hat : d.Has u.ns u.id u.schema := inv.places u (by simpa using hu)
    cases n with
    | terminate => trivial
    | dispose => trivial
    | cancel =>
      rcases build_targets hb hm with ⟨h, _⟩ | ⟨⟨_, h⟩, _⟩ | ⟨⟨_, h⟩, _⟩ | ⟨h, _⟩ | ⟨_, h, _⟩ <;>
        cases h
    | name x =>
      have hr : (Ref.ofNext (.name x)).inNs ns = .named ns none x := by
        simp [Ref.ofNext, Ref.inNs]
      rw [hr] at hm
      rcases build_targets hb hm with ⟨h, h'⟩ | ⟨⟨_, h⟩, _⟩ | ⟨⟨o, h⟩, tm, con, hs⟩ | ⟨h, _⟩ |
        ⟨_, h, _⟩
      · simp only [Ref.named.injEq, true_and] at h
        obtain ⟨rfl, rfl⟩ := h
        refine .inl ⟨_, hat, ?_⟩
        rcases h' with ⟨m, h', _⟩ | ⟨h', _⟩
        · exact .inr ⟨m, h'⟩
        · exact .inl h'
      · cases h
      · simp only [Ref.named.injEq, true_and] at h
        obtain ⟨rfl, rfl⟩ := h
        obtain ⟨tmpl, h1, _, h2, _⟩ := build_section hb hs
        rw [hs] at hat
        exact .inr ⟨u.ns, u.id, tm, con, tmpl, rfl, hat, h1, h2 _ _ _ hm⟩
      · cases h
      · cases h
    | exposed sec slot =>
      have hr : (Ref.ofNext (.exposed sec slot)).inNs ns = .named ns (some sec) slot := by
        simp [Ref.ofNext, Ref.inNs]
      rw [hr] at hm
      rcases build_targets hb hm with ⟨h, h'⟩ | ⟨⟨o, h⟩, tm, con, hs⟩ | ⟨⟨o, h⟩, tm, con, hs⟩ |
        ⟨h, _⟩ | ⟨_, h, _⟩
      · simp only [Ref.named.injEq, reduceCtorEq, false_and, and_false] at h
      · simp only [Ref.named.injEq, Option.some.injEq] at h
        obtain ⟨rfl, rfl, rfl⟩ := h
        obtain ⟨tmpl, h1, h2, _⟩ := build_section hb hs
        rw [hs] at hat
        obtain ⟨n, h3⟩ := h2 _ _ _ hm
        exact ⟨tm, con, tmpl, n, hat, h1, h3⟩
      · simp only [Ref.named.injEq, reduceCtorEq, false_and, and_false] at h
      · cases h
      · cases h

theorem Inv.settledResolves {reg : Registry} {d : Diagram} {onErr : Ref} {io : Io} {s : St}
    (inv : Inv reg d.templates onErr d.ops (builtins d.start io) [] s) {ns : List Name} {n : Next}
    {o : Out} (h : Connected s o ((Ref.ofNext n).inNs ns) ∨ Disposed s o ((Ref.ofNext n).inNs ns) ∨
      Lost s o ((Ref.ofNext n).inNs ns)) : d.Resolves ns n := by
  obtain ⟨t, ht⟩ := settled_target h
  exact inv.resolves ht

/-- C77, the part that holds. When the build of a diagram succeeds, whatever an operation names
as the target of an output exists: another operation that can be connected to, an output of the
section it is in, an input or buffer of a section beside it; and it names `cancel` only if it is
not inside of a section or a scope. -/
theorem C77_operation_partial {reg : Registry} {io : Io} {ord : Order} {max : Nat} {d : Diagram}
    {s : St} (hd : d.Keyed) (hord : Drains ord) (h : create reg io ord max d = .ok s)
    {ns : List Name} {id : Name} {sch : Schema} (hat : d.Has ns id sch) {n : Next}
    (hn : n ∈ sch.nexts) : d.Resolves ns n := by
  obtain ⟨inv, _⟩ := create_inv hd hord h
  obtain ⟨ms, _, h2, h3⟩ := C44_partial hd hord h hat
  have hm : (Ref.ofNext n).inNs ns ∈ ms.map (·.2) := by
    rw [h2]
    exact List.mem_map.2 ⟨_, hn, rfl⟩
  obtain ⟨e, he, hr⟩ := List.mem_map.1 hm
  refine inv.settledResolves (o := e.1) ?_
  rw [← hr]
  rcases h3 e he with h4 | h4 | ⟨_, h4⟩
  · exact .inl h4
  · exact .inr (.inl h4)
  · exact .inr (.inr h4)

/-- C77, the part that holds, for the start of the diagram. -/
theorem C77_start_partial {reg : Registry} {io : Io} {ord : Order} {max : Nat} {d : Diagram}
    {s : St} (hd : d.Keyed) (hord : Drains ord) (h : create reg io ord max d = .ok s) :
    d.Resolves [] d.start := by
  obtain ⟨inv, _⟩ := create_inv hd hord h
  obtain ⟨o, _, _, h3⟩ := C44_start hd hord h
  have hr : (Ref.ofNext d.start).inNs [] = Ref.ofNext d.start := by
    cases d.start <;> simp [Ref.ofNext, Ref.inNs]
  refine inv.settledResolves (o := o) ?_
  rw [hr]
  rcases h3 with h4 | h4 | ⟨_, h4⟩
  · exact .inl h4
  · exact .inr (.inl h4)
  · exact .inr (.inr h4)

/-- C77, the part that holds, for a scope: its start exists inside, its next operation outside. -/
theorem C77_scope_partial {reg : Registry} {io : Io} {ord : Order} {max : Nat} {d : Diagram}
    {s : St} (hd : d.Keyed) (hord : Drains ord) (h : create reg io ord max d = .ok s)
    {ns : List Name} {id : Name} {start next : Next} {streams : List (Name × Next)}
    {ops : List (Name × Schema)} (hat : d.Has ns id (.scope start next streams ops)) :
    d.Resolves (ns ++ [id]) start ∧ d.Resolves ns next := by
  obtain ⟨inv, _⟩ := create_inv hd hord h
  obtain ⟨o, o', _, _, h1⟩ := C44_scope hd hord h hat
  exact ⟨inv.settledResolves (h1 o _ (by simp)), inv.settledResolves (h1 o' _ (by simp))⟩

/-- C77, the part that holds, for a section: its template exists, and the outputs that are
connected are outputs of the template. -/
theorem C77_section_partial {reg : Registry} {io : Io} {ord : Order} {max : Nat} {d : Diagram}
    {s : St} (hd : d.Keyed) (hord : Drains ord) (h : create reg io ord max d = .ok s)
    {ns : List Name} {id t : Name} {con : List (Name × Next)}
    (hat : d.Has ns id (.template t con)) :
    ∃ tmpl, d.templates.lookup t = some tmpl ∧ ∀ out n, (out, n) ∈ con → out ∈ tmpl.outputs := by
  obtain ⟨inv, _⟩ := create_inv hd hord h
  obtain ⟨u, hu, rfl, rfl, hsch⟩ := inv.all hat
  obtain ⟨c, as, hb, _⟩ := inv.did u hu
  obtain ⟨tmpl, h1, _, _, _, h2⟩ := build_section hb hsch
  exact ⟨tmpl, h1, fun out n hm => h2 _ hm⟩

/-- The operations that make buffers. -/
theorem build_buffer {reg : Registry} {ts : List (Name × Template)} {onErr : Ref} {u : UOp}
    {c : Cons} {as : List Act} (h : build reg ts onErr u c = .ok (as, .finished))
    {r : Ref} {b : BufRef} (hm : .buffer r b ∈ as) :
    (r = .named u.ns none u.id ∧ ∃ ser, u.schema = .buffer ser) ∨
      ∃ t con, u.schema = .template t con := by
  cases hsch : u.schema with
  | template t con => exact .inr ⟨t, con, rfl⟩
  | buffer ser =>
    left
    refine ⟨?_, ser, rfl⟩
    unfold build at h
    simp only [hsch] at h
    split at h
    · cases h
    · cases h
    · cases h
      simp only [List.mem_cons, reduceCtorEq, Act.buffer.injEq, false_or, List.not_mem_nil,
        or_false] at hm
      rw [hm.1]
      simp [intoRef, Ref.ofNext, Ref.inNs]
  | node _ _ _ _ =>
    unfold build at h
    simp only [hsch] at h
    cases h
    simp at hm
  | transform _ _ =>
    unfold build at h
    simp only [hsch] at h
    cases h
    simp at hm
  | streamOut _ =>
    unfold build at h
    simp only [hsch] at h
    cases h
    simp at hm
  | scope _ _ _ _ =>
    unfold build at h
    simp only [hsch] at h
    cases h
    simp at hm
  | _ =>
    unfold build at h
    simp only [hsch] at h
    repeat' split at h
    all_goals cases h
    all_goals simp at hm

/-- C77, the part that holds, for buffers: the buffers that an access, a listener or a join names exist,
as buffers beside it or as buffers that a section beside it exposes. -/
theorem C77_buffers_partial {reg : Registry} {io : Io} {ord : Order} {max : Nat} {d : Diagram}
    {s : St} (hd : d.Keyed) (hord : Drains ord) (h : create reg io ord max d = .ok s)
    {ns : List Name} {id : Name} {next : Next} {buffers : List Next}
    (hat : d.Has ns id (.access next buffers) ∨ d.Has ns id (.listen next buffers) ∨
      ∃ clone ser, d.Has ns id (.join next buffers clone ser)) {n : Next}
    (hn : n ∈ buffers) : d.ResolvesBuffer ns n := by
  obtain ⟨inv, _⟩ := create_inv hd hord h
  have hmade := create_made h
  have hh : ∃ hints, Holds s ns buffers hints := by
    rcases hat with hat | hat | ⟨clone, ser, hat⟩
    · obtain ⟨_, _, hints, _, h1, _⟩ := (C76_buffers hd hord h).1 hat
      exact ⟨hints, h1⟩
    · obtain ⟨_, hints, _, h1, _⟩ := (C76_buffers hd hord h).2 hat
      exact ⟨hints, h1⟩
    · obtain ⟨_, tys, _, ⟨h1, h2⟩, _⟩ := C76_joins hd hord h hat
      refine ⟨tys.map .exact, by simpa using h1, fun p hp => ?_⟩
      rw [List.zip_map_right] at hp
      obtain ⟨q, hq, rfl⟩ := List.mem_map.1 hp
      obtain ⟨r, h3, h4⟩ := h2 q hq
      exact ⟨r, q.2, h3, h4, rfl⟩
  obtain ⟨hints, hlen, hh⟩ := hh
  obtain ⟨i, hi, rfl⟩ := List.getElem_of_mem hn
  obtain ⟨r, t, h1, h2, _⟩ := hh (buffers[i], hints[i]'(by omega)) (by
    refine List.mem_of_getElem (i := i) (h := by simp; omega) ?_
    simp)
  have h3 : ∃ b, s.c.bufs.lookup ((Ref.ofNext buffers[i]).inNs ns) = some b := by
    rcases h1.cases_head' with h4 | ⟨r', h4, _⟩
    · rw [← h4] at h2
      exact ⟨_, h2⟩
    · exact ⟨_, h4⟩
  obtain ⟨b, h3⟩ := h3
  obtain ⟨u, hu, c, as, hb, hm⟩ := hmade _ _ h3
  have hat' : d.Has u.ns u.id u.schema := inv.places u (by simpa using hu)
  rcases build_buffer hb hm with ⟨hr, ser, hs⟩ | ⟨tm, con, hs⟩
  · rw [hs] at hat'
    cases hnx : buffers[i] <;> rw [hnx] at hr <;>
      simp only [Ref.ofNext, Ref.inNs, List.append_nil, Ref.named.injEq, reduceCtorEq, true_and,
        false_and, and_false] at hr
    obtain ⟨rfl, rfl⟩ := hr
    exact ⟨ser, hat'⟩
  · obtain ⟨tmpl, g1, _, _, g2, _⟩ := build_section hb hs
    obtain ⟨slot, m, g3, hr⟩ := g2 _ _ hm
    rw [hs] at hat'
    cases hnx : buffers[i] <;> rw [hnx] at hr <;>
      simp only [Ref.ofNext, Ref.inNs, List.append_nil, Ref.named.injEq, reduceCtorEq,
        false_and, and_false, Option.some.injEq] at hr
    obtain ⟨rfl, rfl, rfl⟩ := hr
    exact ⟨tm, con, tmpl, m, hat', g1, g3⟩

/-- C46. A diagram with a section whose template leads to an unknown template or to a cycle is
refused, with an error that says so. -/
theorem C46_create (reg : Registry) (io : Io) (ord : Order) (max : Nat) (d : Diagram)
    {id t : Name} {con : List (Name × Next)} (hm : (id, Schema.template t con) ∈ d.ops)
    (hbad : MeetsUnknown d.templates t ∨ MeetsCycle d.templates t) :
    (∃ b, create reg io ord max d = .error (.unknownTemplate b)) ∨
      create reg io ord max d = .error .circularTemplate := by
  have key : ∀ l e, validateUsage d.templates l = .error e →
      (∃ b, e = .unknownTemplate b) ∨ e = .circularTemplate := by
    intro l
    induction l with
    | nil => intro e h; cases h
    | cons a rest ih =>
      intro e h
      simp only [validateUsage] at h
      split at h
      · rename_i e' he
        cases h
        rcases C46_error _ _ _ he with ⟨b, h1, _⟩ | ⟨h1, _⟩
        · exact .inl ⟨b, h1⟩
        · exact .inr h1
      · exact ih e h
  cases hv : validateUsage d.templates (directUses d.ops) with
  | ok u =>
    obtain ⟨h1, h2⟩ := (C46_diagram _ _).1 hv id t con hm
    rcases hbad with h | h
    · exact absurd h h1
    · exact absurd h h2
  | error e =>
    have : create reg io ord max d = .error e := by
      simp only [create, hv]
    rw [this]
    rcases key _ _ hv with ⟨b, rfl⟩ | rfl
    · exact .inl ⟨b, rfl⟩
    · exact .inr rfl

/-- A section made from `a` contains sections made from whatever `a` leads to. -/
theorem Diagram.Has.reach {d : Diagram} {a b : Name} (h : Star (UsesTemplate d.templates) a b) :
    ∀ {ns : List Name} {id : Name} {con : List (Name × Next)}, d.Has ns id (.template a con) →
      ∃ more id' con', d.Has (ns ++ more) id' (.template b con') := by
  induction h with
  | refl => intro ns id con hat; exact ⟨[], id, con, by simpa using hat⟩
  | tail _ hbc ih =>
    intro ns id con hat
    obtain ⟨more, id', con', h1⟩ := ih hat
    obtain ⟨tm, h2, id2, c2, h3⟩ := hbc
    exact ⟨more ++ [id'], id2, c2, by
      rw [← List.append_assoc]
      exact At.inTemplate h1 h2 h3⟩

/-- C46. In a diagram that builds, no section, wherever it is, has a template that leads to an
unknown template or to a cycle. -/
theorem C46_built {reg : Registry} {io : Io} {ord : Order} {max : Nat} {d : Diagram}
    {s : St} (hd : d.Keyed) (hord : Drains ord) (h : create reg io ord max d = .ok s)
    {ns : List Name} {id t : Name} {con : List (Name × Next)}
    (hat : d.Has ns id (.template t con)) :
    ¬ MeetsUnknown d.templates t ∧ ¬ MeetsCycle d.templates t := by
  obtain ⟨inv, _⟩ := create_inv hd hord h
  constructor
  · rintro ⟨b, h1, h2⟩
    obtain ⟨more, id', con', h3⟩ := hat.reach h1
    obtain ⟨tm, h4, _⟩ := C77_section_partial hd hord h h3
    rw [h2] at h4
    cases h4
  · rintro ⟨b, c, h1, h2, h3⟩
    obtain ⟨more, id', con', h4⟩ := hat.reach h1
    -- the cycle can be followed any number of times
    have deep : ∀ n : Nat, ∃ ns' id' con', d.Has ns' id' (.template b con') ∧ n ≤ ns'.length := by
      intro n
      induction n with
      | zero => exact ⟨_, _, _, h4, Nat.zero_le _⟩
      | succ n ih =>
        obtain ⟨ns1, id1, con1, g1, g2⟩ := ih
        obtain ⟨tm, k1, id2, c2, k2⟩ := h2
        obtain ⟨more', id3, con3, g3⟩ := Diagram.Has.reach h3 (At.inTemplate g1 k1 k2)
        exact ⟨_, _, _, g3, by simp; omega⟩
    have bound : ∀ us : List UOp, ∃ n, ∀ u, u ∈ us → u.ns.length < n := by
      intro us
      induction us with
      | nil => exact ⟨0, by simp⟩
      | cons u rest ih =>
        obtain ⟨n, hn⟩ := ih
        refine ⟨n + u.ns.length + 1, ?_⟩
        intro v hv
        rcases List.mem_cons.1 hv with rfl | hv
        · omega
        · have := hn v hv
          omega
    obtain ⟨n, hn⟩ := bound s.done
    obtain ⟨ns', id', con', g1, g2⟩ := deep n
    obtain ⟨u, hu, rfl, _⟩ := inv.all g1
    have := hn u hu
    omega

end Verif.Diagram
