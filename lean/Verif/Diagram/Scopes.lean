import Verif.Diagram.BuildProps

/-
The scopes of the outputs and of the inputs they are connected to.
-/
namespace Verif.Diagram

/-- The scope of the inside of the sections and scopes `ns`. -/
inductive Scoped (s : St) : List Name → Nat → Prop where
  | root : Scoped s [] 0
  | inSection {u : UOp} {k : Nat} {t : Name} {c : List (Name × Next)} :
    u ∈ s.done → u.schema = .template t c → Scoped s u.ns k → Scoped s (u.ns ++ [u.id]) k
  | inScope {u : UOp} {k : Nat} {a b : Next} {c : List (Name × Next)} {d : List (Name × Schema)}
    {t : Target} {to : Ref} {mate : Option Ref} :
    u ∈ s.done → u.schema = .scope a b c d →
    s.c.targets.lookup (.named u.ns none u.id) = some t →
    t.conn.core = .hop u.scope k to none mate → Scoped s (u.ns ++ [u.id]) k

/-- The scope of what is connected to a reference. -/
def Ref.Scoped (s : St) (r : Ref) (k : Nat) : Prop :=
  match r with
  | .named ns _ _ => Diagram.Scoped s ns k
  | .terminate ns => Diagram.Scoped s ns k
  | .cancel ns => Diagram.Scoped s ns k
  | .streamOut ns _ => Diagram.Scoped s ns k
  | .dispose => True

theorem core_inScope {c c' : Conn} (h : c.core = c'.core) : c.inScope = c'.inScope := by
  cases c <;> cases c' <;> simp only [Conn.core, reduceCtorEq, Conn.slot.injEq, Conn.cancel.injEq,
    Conn.hop.injEq, Conn.redirect.injEq] at h <;> simp [Conn.inScope, h]

theorem ofNext_scoped {s : St} {ns : List Name} {k : Nat} (h : Scoped s ns k) (n : Next) :
    ((Ref.ofNext n).inNs ns).Scoped s k := by
  cases n <;> simp only [Ref.ofNext, Ref.inNs, List.append_nil] <;> first | exact h | trivial

section
variable {reg : Registry} {ts : List (Name × Template)} {onErr : Ref} {ops : List (Name × Schema)}
  {start : Next} {io : Io} {s : St}

theorem Inv.unique {init : List Act} {todo : List UOp} (inv : Inv reg ts onErr ops init todo s)
    {u v : UOp} (hu : u ∈ s.done) (hv : v ∈ s.done) (hn : u.ns = v.ns) (hi : u.id = v.id) :
    u = v := by
  have hnd := inv.nodup
  rw [List.map_append, List.nodup_append] at hnd
  have key : ∀ (l : List UOp), (l.map fun u => (u.ns, u.id)).Nodup → u ∈ l → v ∈ l → u = v := by
    intro l
    induction l with
    | nil => intro _ h; cases h
    | cons x rest ih =>
      intro h1 h2 h3
      rw [List.map_cons, List.nodup_cons] at h1
      rcases List.mem_cons.1 h2 with h4 | h4 <;> rcases List.mem_cons.1 h3 with h5 | h5
      · rw [h4, h5]
      · exact absurd (List.mem_map.2 ⟨v, h5, by rw [← h4, hn, hi]⟩) h1.1
      · exact absurd (List.mem_map.2 ⟨u, h4, by rw [← h5, hn, hi]⟩) h1.1
      · exact ih h1.2 h4 h5
  exact key _ hnd.1 hu hv

theorem Scoped.det {init : List Act} {todo : List UOp} (inv : Inv reg ts onErr ops init todo s)
    {ns : List Name} {k k' : Nat} (h : Scoped s ns k) (h' : Scoped s ns k') : k = k' := by
  induction h generalizing k' with
  | root =>
    generalize hn : ([] : List Name) = ns at h'
    cases h' with
    | root => rfl
    | inSection _ _ _ => exact absurd hn (by simp)
    | inScope _ _ _ _ => exact absurd hn (by simp)
  | @inSection u k t c hu hs _ ih =>
    generalize hn : u.ns ++ [u.id] = ns at h'
    cases h' with
    | root => exact absurd hn (by simp)
    | inSection hv hs' hsc =>
      obtain ⟨h1, h2⟩ := List.append_inj' hn rfl
      obtain rfl := inv.unique hu hv h1 (List.cons.inj h2).1
      exact ih hsc
    | inScope hv hs' _ _ =>
      obtain ⟨h1, h2⟩ := List.append_inj' hn rfl
      obtain rfl := inv.unique hu hv h1 (List.cons.inj h2).1
      rw [hs] at hs'
      cases hs'
  | @inScope u k a b c d t to mate hu hs hl hc =>
    generalize hn : u.ns ++ [u.id] = ns at h'
    cases h' with
    | root => exact absurd hn (by simp)
    | inSection hv hs' hsc =>
      obtain ⟨h1, h2⟩ := List.append_inj' hn rfl
      obtain rfl := inv.unique hu hv h1 (List.cons.inj h2).1
      rw [hs] at hs'
      cases hs'
    | inScope hv hs' hl' hc' =>
      obtain ⟨h1, h2⟩ := List.append_inj' hn rfl
      obtain rfl := inv.unique hu hv h1 (List.cons.inj h2).1
      rw [hl] at hl'
      cases hl'
      rw [hc] at hc'
      cases hc'
      rfl

/-- The operations are in the scope of the sections and scopes around them. -/
theorem Inv.scoped {init : List Act} {todo : List UOp} (inv : Inv reg ts onErr ops init todo s) :
    ∀ (n : Nat) (u : UOp), u.ns.length = n → u ∈ s.done → Scoped s u.ns u.scope := by
  intro n
  induction n with
  | zero =>
    intro u hn hu
    rcases inv.parent u (List.mem_append_left _ hu) with ⟨h1, h2⟩ | ⟨w, _, h1, _⟩
    · rw [h1, h2]
      exact .root
    · rw [h1] at hn
      simp at hn
  | succ n ih =>
    intro u hn hu
    rcases inv.parent u (List.mem_append_left _ hu) with ⟨h1, _⟩ | ⟨w, hw, h1, h2⟩
    · rw [h1] at hn
      cases hn
    · rw [h1] at hn ⊢
      rcases h2 with ⟨⟨t, c, h3⟩, h4⟩ | ⟨⟨a, b, c, d, h3⟩, t, to, mate, h4, h5⟩
      · rw [h4]
        refine .inSection hw h3 (ih w ?_ hw)
        simpa using hn
      · exact .inScope hw h3 h4 h5

theorem Inv.scope_of {init : List Act} {todo : List UOp} (inv : Inv reg ts onErr ops init todo s)
    {u : UOp} (hu : u ∈ s.done) : Scoped s u.ns u.scope := inv.scoped _ u rfl hu

end

/-- The scopes of the targets that an operation sets: `r` and what it is. -/
theorem build_scopes {reg : Registry} {ts : List (Name × Template)} {onErr : Ref} {u : UOp}
    {c : Cons} {as : List Act} (h : build reg ts onErr u c = .ok (as, .finished))
    {r : Ref} {conn : Conn} {scope : Nat} (hm : .target r conn scope ∈ as) :
    scope = u.scope ∧
    ((r = .named u.ns none u.id ∧ conn.inScope = some u.scope) ∨
    ((∃ a b c d, u.schema = .scope a b c d) ∧
      (r = .terminate (u.ns ++ [u.id]) ∨ ∃ n, r = .streamOut (u.ns ++ [u.id]) n) ∧
      ∃ i to mate, conn.inScope = some i ∧
        .target (.named u.ns none u.id) (.hop u.scope i to none mate) u.scope ∈ as) ∨
    (∃ n, r = .named u.ns none u.id ∧ conn = .redirect (.streamOut u.ns n) []) ∨
    ((∃ t c, u.schema = .template t c) ∧
      ((∃ slot n, r = .named u.ns (some u.id) slot ∧
        conn = .redirect ((Ref.ofNext n).inNs (u.ns ++ [u.id])) []) ∨
      (∃ out n, r = .named (u.ns ++ [u.id]) none out ∧
        conn = .redirect ((Ref.ofNext n).inNs u.ns) []) ∨
      (r = .terminate (u.ns ++ [u.id]) ∧ conn = .redirect (.terminate u.ns) [])))) := by
  have me : intoRef u.ns (Ref.ofNext (.name u.id)) = .named u.ns none u.id := by
    simp [intoRef, Ref.ofNext, Ref.inNs]
  unfold build at h
  rw [me] at h
  simp only at h
  cases hsch : u.schema with
  | node inTy outTy next streams =>
    rw [hsch] at h
    cases h
    simp only [List.mem_cons, List.mem_map, reduceCtorEq, and_false, exists_false,
      or_false, Act.target.injEq] at hm
    obtain ⟨rfl, rfl, rfl⟩ := hm
    exact ⟨rfl, .inl ⟨rfl, rfl⟩⟩
  | forkClone next =>
    rw [hsch] at h
    simp only at h
    split at h
    · cases h
    · cases h
    · split at h
      · cases h
        simp only [List.mem_cons, List.mem_map, reduceCtorEq, and_false, exists_false,
          or_false, Act.target.injEq] at hm
        obtain ⟨rfl, rfl, rfl⟩ := hm
        exact ⟨rfl, .inl ⟨rfl, rfl⟩⟩
      · cases h
  | parts next =>
    rw [hsch] at h
    simp only at h
    split at h
    · cases h
    · cases h
    · split at h
      · cases h
      · split at h
        · cases h
        · cases h
          simp only [List.mem_cons, List.mem_map, reduceCtorEq, and_false, exists_false,
            or_false, Act.target.injEq] at hm
          obtain ⟨rfl, rfl, rfl⟩ := hm
          exact ⟨rfl, .inl ⟨rfl, rfl⟩⟩
  | buffer serialize =>
    rw [hsch] at h
    simp only at h
    split at h
    · cases h
    · cases h
    · cases h
      simp only [List.mem_cons, List.not_mem_nil, reduceCtorEq, or_false,
        Act.target.injEq] at hm
      obtain ⟨rfl, rfl, rfl⟩ := hm
      exact ⟨rfl, .inl ⟨rfl, rfl⟩⟩
  | access next buffers =>
    rw [hsch] at h
    simp only at h
    split at h
    · cases h
    · cases h
    · split at h
      · cases h
      · split at h
        · cases h
        · split at h
          · cases h
          · split at h
            · cases h
              simp only [List.mem_append, List.mem_cons, List.mem_map, List.not_mem_nil,
                reduceCtorEq, and_false, exists_false, false_or, or_false,
                Act.target.injEq] at hm
              obtain ⟨rfl, rfl, rfl⟩ := hm
              exact ⟨rfl, .inl ⟨rfl, rfl⟩⟩
            · cases h
  | listen next buffers =>
    rw [hsch] at h
    simp only at h
    split at h
    · cases h
    · cases h
    · split at h
      · cases h
      · split at h
        · cases h
        · split at h
          · cases h
          · split at h
            · cases h
              simp at hm
            · cases h
  | join next buffers clone serialize =>
    rw [hsch] at h
    simp only at h
    split at h
    · cases h
    · split at h
      · cases h
      · split at h
        · cases h
        · split at h
          · cases h
          · cases h
          · cases h
            simp at hm
  | transform next onError =>
    rw [hsch] at h
    cases h
    simp only [List.mem_cons, List.not_mem_nil, reduceCtorEq, false_or, or_false,
      Act.target.injEq] at hm
    obtain ⟨rfl, rfl, rfl⟩ := hm
    exact ⟨rfl, .inl ⟨rfl, rfl⟩⟩
  | streamOut name =>
    rw [hsch] at h
    cases h
    simp only [List.mem_cons, List.not_mem_nil, or_false, Act.target.injEq] at hm
    obtain ⟨rfl, rfl, rfl⟩ := hm
    exact ⟨rfl, .inr (.inr (.inl ⟨name, rfl, by simp [intoRef, Ref.inNs]⟩))⟩
  | template t connect =>
    rw [hsch] at h
    simp only at h
    split at h
    · cases h
    · split at h
      · cases h
        simp only [List.mem_append, List.mem_flatMap, List.mem_map, redirectInput,
          redirectBuffer, redirectOutput, List.mem_cons, List.not_mem_nil, or_false,
          reduceCtorEq, and_false, exists_false, false_or, Act.target.injEq] at hm
        rcases hm with ((⟨e, _, rfl, rfl, rfl⟩ | ⟨e, _, rfl, rfl, rfl⟩) | ⟨o, _, rfl, rfl, rfl⟩) |
          ⟨rfl, rfl, rfl⟩
        · exact ⟨rfl, .inr (.inr (.inr ⟨⟨t, connect, rfl⟩, .inl ⟨e.1, e.2, rfl, rfl⟩⟩))⟩
        · exact ⟨rfl, .inr (.inr (.inr ⟨⟨t, connect, rfl⟩, .inl ⟨e.1, e.2, rfl, rfl⟩⟩))⟩
        · refine ⟨rfl, .inr (.inr (.inr ⟨⟨t, connect, rfl⟩, .inr (.inl ⟨o, _, ?_, rfl⟩)⟩))⟩
          simp [outputSlot, Ref.inNs]
        · refine ⟨rfl, .inr (.inr (.inr ⟨⟨t, connect, rfl⟩, .inr (.inr ⟨?_, ?_⟩)⟩))⟩ <;>
            simp [intoRef, Ref.inNs, Ref.ofNext]
      · cases h
  | scope start next streams ops =>
    rw [hsch] at h
    cases h
    have hme : Act.target (.named u.ns none u.id) (.hop u.scope c.fresh
        (intoChildRef u.ns u.id (Ref.ofNext start)) none
        (some (intoRef u.ns (.terminate [u.id])))) u.scope ∈
        Act.newScope :: streams.map (fun s => Act.target (intoRef u.ns (.streamOut [u.id] s.1))
          (.hop c.fresh u.scope (intoRef u.ns (Ref.ofNext s.2)) none none) u.scope) ++
        ops.map (fun e => Act.child ⟨e.1, childNs u.ns u.id, e.2, c.fresh⟩) ++
        [.target (.named u.ns none u.id) (.hop u.scope c.fresh
            (intoChildRef u.ns u.id (Ref.ofNext start)) none
            (some (intoRef u.ns (.terminate [u.id])))) u.scope,
          .target (intoRef u.ns (.terminate [u.id]))
            (.hop c.fresh u.scope (intoRef u.ns (Ref.ofNext next)) none none) u.scope] :=
      List.mem_append_right _ List.mem_cons_self
    simp only [List.cons_append, List.mem_cons, List.mem_append, List.mem_map,
      List.not_mem_nil, or_false, reduceCtorEq, and_false, exists_false, false_or,
      Act.target.injEq] at hm
    rcases hm with ⟨e, _, rfl, rfl, rfl⟩ | ⟨rfl, rfl, rfl⟩ | ⟨rfl, rfl, rfl⟩
    · refine ⟨rfl, .inr (.inl ⟨⟨_, _, _, _, rfl⟩, .inr ⟨e.1, ?_⟩, c.fresh, _, _, rfl, hme⟩)⟩
      simp [intoRef, Ref.inNs]
    · exact ⟨rfl, .inl ⟨rfl, rfl⟩⟩
    · refine ⟨rfl, .inr (.inl ⟨⟨_, _, _, _, rfl⟩, .inl ?_, c.fresh, _, _, rfl, hme⟩)⟩
      simp [intoRef, Ref.inNs]

/-- The outputs of an operation are in its scope. -/
theorem build_out_scope {reg : Registry} {ts : List (Name × Template)} {onErr : Ref} {u : UOp}
    {c : Cons} {as : List Act} (h : build reg ts onErr u c = .ok (as, .finished))
    {e : Ref × Ty × Nat} (hm : e ∈ as.filterMap Act.out?) : e.2.2 = u.scope := by
  obtain ⟨a, ha, hae⟩ := List.mem_filterMap.1 hm
  cases a <;> simp only [Act.out?, reduceCtorEq, Option.some.injEq] at hae
  rename_i to ty scope
  subst hae
  show scope = u.scope
  clear hm
  unfold build at h
  simp only at h
  split at h
  · cases h
    simp only [List.mem_cons, List.mem_map, reduceCtorEq, false_or, Act.out.injEq] at ha
    rcases ha with ⟨_, _, rfl⟩ | ⟨_, _, _, _, rfl⟩ <;> rfl
  · split at h
    · cases h
    · cases h
    · split at h
      · cases h
        simp only [List.mem_cons, List.mem_map, reduceCtorEq, false_or, Act.out.injEq] at ha
        obtain ⟨_, _, _, _, rfl⟩ := ha
        rfl
      · cases h
  · split at h
    · cases h
    · cases h
    · split at h
      · cases h
      · split at h
        · cases h
        · cases h
          simp only [List.mem_cons, List.mem_map, reduceCtorEq, false_or, Act.out.injEq] at ha
          obtain ⟨_, _, _, _, rfl⟩ := ha
          rfl
  · split at h
    · cases h
    · cases h
    · cases h
      simp at ha
  · split at h
    · cases h
    · cases h
    · split at h
      · cases h
      · split at h
        · cases h
        · split at h
          · cases h
          · split at h
            · cases h
              simp only [List.mem_append, List.mem_cons, List.mem_map, List.not_mem_nil,
                reduceCtorEq, and_false, exists_false, false_or, or_false, Act.out.injEq] at ha
              exact ha.2.2
            · cases h
  · split at h
    · cases h
    · cases h
    · split at h
      · cases h
      · split at h
        · cases h
        · split at h
          · cases h
          · split at h
            · cases h
              simp only [List.mem_append, List.mem_cons, List.mem_map, List.not_mem_nil,
                reduceCtorEq, and_false, exists_false, false_or, or_false, Act.out.injEq] at ha
              exact ha.2.2
            · cases h
  · split at h
    · cases h
    · split at h
      · cases h
      · split at h
        · cases h
        · split at h
          · cases h
          · cases h
          · cases h
            simp only [List.mem_cons, List.not_mem_nil, or_false, Act.out.injEq] at ha
            exact ha.2.2
  · cases h
    simp only [List.mem_cons, List.not_mem_nil, reduceCtorEq, false_or, or_false,
      Act.out.injEq] at ha
    rcases ha with ⟨_, _, rfl⟩ | ⟨_, _, rfl⟩ <;> rfl
  · cases h
    simp at ha
  · split at h
    · cases h
    · split at h
      · cases h
        simp [redirectInput, redirectBuffer, redirectOutput] at ha
      · cases h
  · cases h
    simp at ha

section
variable {reg : Registry} {ts : List (Name × Template)} {onErr : Ref} {ops : List (Name × Schema)}
  {start : Next} {io : Io} {s : St} {todo : List UOp}

/-- Every target is in the scope of its reference, redirections stay in their scope; and the
converters of a target are created in the scope of its input, except for the response and the
streams of a scope. -/
theorem Inv.targetScope (inv : Inv reg ts onErr ops (builtins start io) todo s)
    {r : Ref} {t : Target} (hl : s.c.targets.lookup r = some t) :
    (∀ i, t.conn.inScope = some i → r.Scoped s i ∧ (r = .dispose → False) ∧
      (t.scope = i ∨ ∃ u, u ∈ s.done ∧ (∃ a b c d, u.schema = .scope a b c d) ∧
        (r = .terminate (u.ns ++ [u.id]) ∨ ∃ n, r = .streamOut (u.ns ++ [u.id]) n))) ∧
    (∀ to seen, t.conn = .redirect to seen → ∀ k, r.Scoped s k → to.Scoped s k) := by
  rcases inv.source r t hl with ⟨conn, sc, hm⟩ | ⟨u, hu, c, as, hb, ⟨conn, sc, hm⟩, htg⟩
  · obtain ⟨t', h1, h2, h3⟩ := inv.firstTargets r conn sc hm
    rw [hl] at h1
    cases h1
    simp only [builtins, List.cons_append, List.mem_cons, List.mem_append, List.mem_map,
      List.not_mem_nil, or_false, reduceCtorEq, false_or, Act.target.injEq] at hm
    have hin := core_inScope h3
    rcases hm with ⟨rfl, rfl, rfl⟩ | ⟨p, _, rfl, rfl, rfl⟩ | ⟨rfl, rfl, rfl⟩ | ⟨rfl, rfl, rfl⟩
    · refine ⟨?_, ?_⟩
      · intro i hi
        rw [hin] at hi
        cases hi
        exact ⟨.root, by simp, .inl h2⟩
      · intro to seen hc
        rw [hc] at hin
        cases hin
    · refine ⟨?_, ?_⟩
      · intro i hi
        rw [hin] at hi
        cases hi
        exact ⟨.root, by simp, .inl h2⟩
      · intro to seen hc
        rw [hc] at hin
        cases hin
    · refine ⟨?_, ?_⟩
      · intro i hi
        rw [hin] at hi
        cases hi
      · intro to seen hc
        rw [hc] at h3
        cases h3
    · refine ⟨?_, ?_⟩
      · intro i hi
        rw [hin] at hi
        cases hi
        exact ⟨.root, by simp, .inl h2⟩
      · intro to seen hc
        rw [hc] at hin
        cases hin
  · obtain ⟨t', h1, h2, h3⟩ := htg r conn sc hm
    rw [hl] at h1
    cases h1
    have hin := core_inScope h3
    have hme := inv.scope_of hu
    obtain ⟨rfl, hb⟩ := build_scopes hb hm
    have noredirect : ∀ {i}, conn.inScope = some i → ∀ to seen, t.conn = .redirect to seen →
        ∀ k, r.Scoped s k → to.Scoped s k := by
      intro i hi to seen hc
      rw [hc, hi] at hin
      cases hin
    have redirected : ∀ {to : Ref}, conn = .redirect to [] →
        (∀ k, r.Scoped s k → to.Scoped s k) →
        (∀ i, t.conn.inScope = some i → r.Scoped s i ∧ (r = .dispose → False) ∧
          (t.scope = i ∨ ∃ u, u ∈ s.done ∧ (∃ a b c d, u.schema = .scope a b c d) ∧
            (r = .terminate (u.ns ++ [u.id]) ∨ ∃ n, r = .streamOut (u.ns ++ [u.id]) n))) ∧
        (∀ to seen, t.conn = .redirect to seen → ∀ k, r.Scoped s k → to.Scoped s k) := by
      rintro to rfl hk
      obtain ⟨seen, h4⟩ := core_redirect h3
      refine ⟨?_, ?_⟩
      · intro i hi
        rw [hin] at hi
        cases hi
      · intro to' seen' hc
        rw [h4] at hc
        cases hc
        exact hk
    rcases hb with ⟨rfl, hi⟩ | ⟨⟨a, b, c', d', hs⟩, hr, i, to, mate, hi, hm'⟩ |
      ⟨n, rfl, rfl⟩ | ⟨⟨tn, cn, hs⟩, ⟨slot, n, rfl, rfl⟩ | ⟨out, n, rfl, rfl⟩ | ⟨rfl, rfl⟩⟩
    · refine ⟨?_, noredirect hi⟩
      intro i hi'
      rw [hin, hi] at hi'
      cases hi'
      exact ⟨hme, by simp, .inl h2⟩
    · refine ⟨?_, noredirect hi⟩
      intro i' hi'
      rw [hin, hi] at hi'
      cases hi'
      obtain ⟨t', g1, _, g3⟩ := htg _ _ _ hm'
      have hk : Scoped s (u.ns ++ [u.id]) i := .inScope hu hs g1 g3
      refine ⟨?_, ?_, .inr ⟨u, hu, ⟨_, _, _, _, hs⟩, hr⟩⟩
      · rcases hr with rfl | ⟨n, rfl⟩ <;> exact hk
      · rcases hr with rfl | ⟨n, rfl⟩ <;> simp
    · exact redirected rfl fun k hk => hk
    · refine redirected rfl fun k hk => ofNext_scoped ?_ _
      exact .inSection hu hs hk
    · refine redirected rfl fun k hk => ofNext_scoped ?_ _
      have h5 := Scoped.inSection hu hs hme
      rw [Scoped.det inv hk h5]
      exact hme
    · refine redirected rfl fun k hk => ?_
      have h5 := Scoped.inSection hu hs hme
      rw [Scoped.det inv hk h5]
      exact hme

end

/-! ### The connections -/

/-- The connections that were made for an output are between its scope, the scope of the input,
and the scope in which the converters of the target are created. -/
def EdgeOk (targets : List (Ref × Target)) (l : Link) : Prop :=
  ∃ t i, targets.lookup l.into = some t ∧ t.conn.inScope = some i ∧ l.edges ≠ [] ∧
    ∀ p, p ∈ l.edges → p = (l.out.scope, i) ∨ p = (t.scope, i) ∨ p = (l.out.scope, t.scope)

def EdgesOk (targets : List (Ref × Target)) (links : List Link) : Prop :=
  ∀ l, l ∈ links → EdgeOk targets l

theorem EdgeOk.keeps {targets targets' : List (Ref × Target)} {l : Link}
    (h : EdgeOk targets l) (k : Keeps targets targets') : EdgeOk targets' l := by
  obtain ⟨t, i, h1, h2, hne, h3⟩ := h
  obtain ⟨t', g1, g2, g3⟩ := k _ _ h1
  refine ⟨t', i, g1, (core_inScope g3).trans h2, hne, ?_⟩
  rw [g2]
  exact h3

theorem EdgesOk.keeps {targets targets' : List (Ref × Target)} {links : List Link}
    (h : EdgesOk targets links) (k : Keeps targets targets') : EdgesOk targets' links :=
  fun l hl => (h l hl).keeps k

theorem connectSlot_edges {reg : Registry} {onErr : Ref} {at_ : Nat} {ty : Ty} {scope : Nat}
    {conv conv' : List Ty} {o : Out} {extra : List (Ref × Ty × Nat)} {edges : List (Nat × Nat)}
    (h : connectSlot reg onErr at_ ty scope conv o = .ok (conv', extra, edges)) :
    edges ≠ [] ∧ ∀ p, p ∈ edges → p = (o.scope, scope) ∨ p = (at_, scope) ∨ p = (o.scope, at_) := by
  unfold connectSlot at h
  repeat' split at h
  all_goals first
    | cases h; done
    | (cases h; refine ⟨by simp, ?_⟩
       simp only [List.mem_cons, List.not_mem_nil, or_false]; intro p hp
       first
        | exact .inl hp
        | exact .inr (.inr hp)
        | exact .inr hp)

theorem connect_edges {reg : Registry} {onErr : Ref} {at_ : Nat} {conn conn' : Conn} {o : Out}
    {extra : List (Ref × Ty × Nat)} {edges : List (Nat × Nat)}
    (h : connect reg onErr at_ conn o = .ok (.link conn' extra edges)) :
    ∃ i, conn.inScope = some i ∧ edges ≠ [] ∧
      ∀ p, p ∈ edges → p = (o.scope, i) ∨ p = (at_, i) ∨ p = (o.scope, at_) := by
  cases conn with
  | slot ty scope conv =>
    simp only [connect] at h
    split at h
    · cases h
    · rename_i hj
      cases h
      exact ⟨scope, rfl, connectSlot_edges hj⟩
  | dispose => cases h
  | cancel scope conv =>
    simp only [connect] at h
    refine ⟨scope, rfl, ?_⟩
    split at h
    · cases h
      exact ⟨by simp, fun p hp => .inl (List.mem_singleton.1 hp)⟩
    · split at h
      · cases h
        exact ⟨by simp, fun p hp => .inr (.inr (List.mem_singleton.1 hp))⟩
      · split at h <;>
        · cases h
          simp only [List.mem_cons, List.not_mem_nil, or_false]
          exact ⟨by simp, fun p hp => .inr hp⟩
  | redirect to seen =>
    simp only [connect] at h
    split at h <;> cases h
  | hop i out to x mate =>
    refine ⟨i, rfl, ?_⟩
    cases x with
    | none =>
      cases h
      exact ⟨by simp, fun p hp => .inl (List.mem_singleton.1 hp)⟩
    | some p =>
      obtain ⟨ty, conv⟩ := p
      simp only [connect] at h
      split at h
      · cases h
      · rename_i hj
        cases h
        exact connectSlot_edges hj

theorem addExtra_links (extra : List (Ref × Ty × Nat)) : ∀ (p : Pass),
    (addExtra p extra).links = p.links := by
  induction extra with
  | nil => intro p; rfl
  | cons x rest ih =>
    obtain ⟨to, ty, scope⟩ := x
    intro p
    simp only [addExtra]
    rw [ih]

theorem connectAll_edges {reg : Registry} {onErr r : Ref} {os : List Out} :
    ∀ {t : Target} {p p' : Pass}, connectAll reg onErr r t os p = .ok p' →
      (∃ t0, p.targets.lookup r = some t0 ∧ t0.scope = t.scope ∧ t0.conn.core = t.conn.core) →
      EdgesOk p.targets p.links → EdgesOk p'.targets p'.links := by
  induction os with
  | nil =>
    intro t p p' h ht hs
    cases h
    obtain ⟨t0, ht0, hsc, hcc⟩ := ht
    exact hs.keeps (Keeps.set ht0 hsc.symm hcc.symm)
  | cons o rest ih =>
    intro t p p' h ht hs
    obtain ⟨t0, ht0, hsc, hcc⟩ := ht
    simp only [connectAll] at h
    split at h
    · cases h
    · rename_i conn extra edges hj
      obtain ⟨i, g1, hne, g2⟩ := connect_edges hj
      have hcore : conn.core = t.conn.core := by
        rcases connect_cases hj with ⟨_, _, _, e, hc, _⟩ | ⟨e, _⟩ | ⟨_, _, _, _, e⟩
        · cases e; exact hc
        · cases e
        · cases e
      obtain ⟨g3, _⟩ := addExtra_extra extra
        { p with progress := true, links := p.links ++ [⟨o, r, edges⟩] }
      have g4 := addExtra_links extra
        { p with progress := true, links := p.links ++ [⟨o, r, edges⟩] }
      refine ih h ⟨t0, by rw [g3]; exact ht0, hsc, hcc.trans hcore.symm⟩ ?_
      rw [g3, g4]
      intro l hl
      rcases List.mem_append.1 hl with hl | hl
      · exact hs l hl
      · rw [List.mem_singleton.1 hl]
        refine ⟨t0, i, ht0, (core_inScope hcc).trans g1, hne, ?_⟩
        rw [hsc]
        exact g2
    · have := ih h ⟨t0, ht0, hsc, hcc⟩ hs
      exact this
    · rename_i conn to hj
      have hcore : conn.core = t.conn.core := by
        rcases connect_cases hj with ⟨_, _, _, e, _⟩ | ⟨e, _⟩ | ⟨to', seen, hc, _, e⟩
        · cases e
        · cases e
        · cases e
          rw [hc]
          rfl
      have := ih h ⟨t0, ht0, hsc, hcc.trans hcore.symm⟩ hs
      exact this

theorem drain_edges {reg : Registry} {onErr : Ref} {busy : Bool} {rem : List (Ref × List Out)} :
    ∀ {p p' : Pass}, drain reg onErr busy rem p = .ok p' →
      EdgesOk p.targets p.links → EdgesOk p'.targets p'.links := by
  induction rem with
  | nil => intro p p' h hs; cases h; exact hs
  | cons e rest ih =>
    obtain ⟨r, os⟩ := e
    intro p p' h hs
    simp only [drain] at h
    split at h
    · split at h
      · have := ih h hs
        exact this
      · cases h
    · rename_i t ht
      split at h
      · cases h
      · rename_i p1 h1
        exact ih h (connectAll_edges h1 ⟨t, ht, rfl, rfl⟩ hs)

theorem inner_edges {reg : Registry} {onErr : Ref} {ord : Order} {busy : Bool} :
    ∀ {n : Nat} {s s' : St} {q q' : Bool} {left : Nat},
      inner reg onErr ord busy n s q = .ok (s', q', left) →
      EdgesOk s.c.targets s.links → EdgesOk s'.c.targets s'.links := by
  intro n
  induction n with
  | zero =>
    intro s s' q q' left h _
    simp only [inner] at h
    split at h <;> cases h
  | succ n ih =>
    intro s s' q q' left h hs
    simp only [inner] at h
    split at h
    · cases h
    · rename_i s1 more p h1
      have a : EdgesOk s1.c.targets s1.links := by
        simp only [pass] at h1
        split at h1
        · cases h1
        · rename_i p hp
          cases h1
          exact drain_edges hp hs
      split at h
      · exact ih h a
      · cases h
        exact a

theorem acts_links {as : List Act} : ∀ {s s' : St}, acts s as = .ok s' → s'.links = s.links := by
  induction as with
  | nil => intro s s' h; cases h; rfl
  | cons a rest ih =>
    intro s s' h
    simp only [acts] at h
    split at h
    · cases h
    · rename_i s1 h1
      rw [ih h]
      cases a with
      | out to ty scope => cases h1; rfl
      | target r conn scope =>
        simp only [act] at h1
        split at h1
        · cases h1
        · cases h1; rfl
      | buffer r b =>
        simp only [act] at h1
        split at h1
        · cases h1
        · cases h1; rfl
      | hint r b => cases h1; rfl
      | child u => cases h1; rfl
      | newScope => cases h1; rfl

theorem buildAll_edges {env : Env}
    {us : List UOp} : ∀ {s s' : St} {deferred deferred' : List UOp} {p p' : Bool},
      buildAll env us s deferred p = .ok (s', deferred', p') →
      EdgesOk s.c.targets s.links → EdgesOk s'.c.targets s'.links := by
  induction us with
  | nil => intro s s' deferred deferred' p p' h hs; cases h; exact hs
  | cons u rest ih =>
    intro s s' deferred deferred' p p' h hs
    simp only [buildAll] at h
    split at h
    · cases h
    · rename_i as status hb
      split at h
      · cases h
      · rename_i s1 h1
        have h2 : EdgesOk s1.c.targets s1.links := by
          rw [acts_links h1]
          exact hs.keeps (acts_did h1).keeps
        cases status with
        | finished => exact ih h h2
        | deferred b => exact ih h h2

theorem outer_edges {env : Env} {reg : Registry} {onErr : Ref} {ord : Order} :
    ∀ {fuel left : Nat} {us : List UOp} {s s' : St},
      outer env reg onErr ord fuel left us s = .ok s' →
      EdgesOk s.c.targets s.links → EdgesOk s'.c.targets s'.links := by
  intro fuel
  induction fuel with
  | zero => intro left us s s' h; cases h
  | succ fuel ih =>
    intro left us s s' h hs
    simp only [outer] at h
    split at h
    · cases h
      exact hs
    · split at h
      · cases h
      · rename_i s1 us1 p1 h1
        split at h
        · cases h
        · rename_i s2 p2 left2 h2
          split at h
          · split at h
            · cases h
            · exact ih h (inner_edges h2 (buildAll_edges h1 hs))
          · cases h

theorem create_edges {reg : Registry} {io : Io} {ord : Order} {max : Nat} {d : Diagram} {s : St}
    (h : create reg io ord max d = .ok s) : EdgesOk s.c.targets s.links := by
  simp only [create] at h
  split at h
  · cases h
  · split at h
    · cases h
    · rename_i s0 h0
      simp only [run] at h
      split at h
      · cases h
      · rename_i s1 h1
        split at h
        · cases h
          refine outer_edges h1 ?_
          rw [acts_links h0]
          intro l hl
          cases hl
        · cases h

section
variable {reg : Registry} {ts : List (Name × Template)} {onErr : Ref} {ops : List (Name × Schema)}
  {start : Next} {io : Io} {s : St} {todo : List UOp}

theorem Inv.star (inv : Inv reg ts onErr ops (builtins start io) todo s) {r r' : Ref}
    (h : Star (PassesTo s.c.targets) r r') {k : Nat} (hr : r.Scoped s k) : r'.Scoped s k := by
  induction h with
  | refl => exact hr
  | tail _ g ih =>
    obtain ⟨seen, sc, g⟩ := g
    exact (inv.targetScope g).2 _ _ rfl _ ih

/-- The connections of an output that is in the scope of what it refers to. -/
theorem Inv.link (inv : Inv reg ts onErr ops (builtins start io) todo s)
    (he : EdgesOk s.c.targets s.links)
    {o : Out} {r : Ref} (hm : (o, r) ∈ s.made) (hr : r.Scoped s o.scope)
    {l : Link} (hl : l ∈ s.links) (hlo : l.out = o) :
    (∃ t, s.c.targets.lookup l.into = some t ∧ t.conn.inScope = some o.scope) ∧
    l.edges ≠ [] ∧
    ((∀ p, p ∈ l.edges → p = (o.scope, o.scope)) ∨
      ∃ u, u ∈ s.done ∧ (∃ a b c d, u.schema = .scope a b c d) ∧
        (l.into = .terminate (u.ns ++ [u.id]) ∨ ∃ n, l.into = .streamOut (u.ns ++ [u.id]) n)) := by
  subst hlo
  have hstar : Star (PassesTo s.c.targets) r l.into := by
    obtain ⟨led, _⟩ := inv.ok
    obtain ⟨r', g1, g2, _⟩ := led.linkFrom l hl
    rw [made_unique led.nodup g1 hm] at g2
    exact g2
  obtain ⟨t, i, h1, h2, hne, h3⟩ := he l hl
  have h4 := inv.star hstar hr
  obtain ⟨h5, h6, h7⟩ := (inv.targetScope h1).1 i h2
  have h8 : i = l.out.scope := by
    cases hi : l.into with
    | dispose => exact absurd hi h6
    | named ns sec op => rw [hi] at h4 h5; exact Scoped.det inv h5 h4
    | terminate ns => rw [hi] at h4 h5; exact Scoped.det inv h5 h4
    | cancel ns => rw [hi] at h4 h5; exact Scoped.det inv h5 h4
    | streamOut ns n => rw [hi] at h4 h5; exact Scoped.det inv h5 h4
  subst h8
  refine ⟨⟨t, h1, h2⟩, hne, ?_⟩
  rcases h7 with h7 | h7
  · left
    intro p hp
    have := h3 p hp
    rw [h7] at this
    simpa using this
  · exact .inr h7

end

end Verif.Diagram
