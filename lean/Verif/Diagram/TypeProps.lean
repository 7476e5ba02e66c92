import Verif.Diagram.Buffers

/-
Properties of whole diagrams: C75 and C76.
-/
namespace Verif.Diagram

/-- The types of the input and of the outputs that a schema got. -/
theorem build_typed {reg : Registry} {ts : List (Name × Template)} {onErr : Ref} {u : UOp}
    {c : Cons} {as : List Act} (h : build reg ts onErr u c = .ok (as, .finished))
    (ht : u.schema.takesInput = true) (hs : ∀ a b c d, u.schema ≠ .scope a b c d) :
    ∃ ty tys, Typed reg u.schema ty tys ∧
      .target (.named u.ns none u.id) (.slot ty u.scope []) u.scope ∈ as ∧
      ∃ pre, (as.filterMap Act.out?).map (·.2.1) = pre ++ tys ∧ tys.length = u.schema.nexts.length := by
  have me : intoRef u.ns (Ref.ofNext (.name u.id)) = .named u.ns none u.id := by
    simp [intoRef, Ref.ofNext, Ref.inNs]
  unfold build at h
  simp only [me] at h
  cases hsch : u.schema with
  | node inTy outTy next streams =>
    rw [hsch] at h
    cases h
    refine ⟨_, _, .node, by simp, [], ?_, by simp [Schema.nexts]⟩
    simp only [List.filterMap_cons, Act.out?]
    rw [outs_out (fun s : Ty × Next => intoRef u.ns (Ref.ofNext s.2)) (·.1)]
    simp
  | forkClone next =>
    rw [hsch] at h
    simp only at h
    split at h
    · cases h
    · cases h
    · rename_i ty _
      split at h
      · rename_i hc
        cases h
        refine ⟨_, _, .forkClone hc, by simp, [], ?_, by simp [Schema.nexts]⟩
        simp only [List.filterMap_cons, Act.out?]
        rw [outs_out (fun n => intoRef u.ns (Ref.ofNext n)) (fun _ => ty)]
        simp
      · cases h
  | parts next =>
    rw [hsch] at h
    simp only at h
    split at h
    · cases h
    · cases h
    · rename_i ty _
      split at h
      · cases h
      · rename_i tys hp
        split at h
        · cases h
        · rename_i hl
          have hl : tys.length = next.length := by omega
          cases h
          refine ⟨_, _, .parts hp hl, by simp, [], ?_, by simp [Schema.nexts, hl]⟩
          simp only [List.filterMap_cons, Act.out?]
          rw [outs_out (fun p : Next × Ty => intoRef u.ns (Ref.ofNext p.1)) (·.2)]
          rw [List.map_map, List.nil_append]
          exact List.map_snd_zip (Nat.le_of_eq hl)
  | buffer serialize =>
    rw [hsch] at h
    simp only at h
    split at h
    · cases h
    · cases h
    · rename_i ty hb
      cases h
      refine ⟨ty, [], ?_, by simp, [], by simp [Act.out?], by simp [Schema.nexts]⟩
      cases serialize with
      | true =>
        simp only [bufferType, if_true] at hb
        cases hb
        exact .serialized
      | false => exact .buffer
  | access next buffers =>
    rw [hsch] at h
    simp only at h
    split at h
    · cases h
    · cases h
    · rename_i ty _
      split at h
      · cases h
      · rename_i msg hints ha
        split at h
        · cases h
        · split at h
          · cases h
          · split at h
            · cases h
              refine ⟨_, _, .access ha, by simp, [], ?_, by simp [Schema.nexts]⟩
              rw [List.filterMap_append, outs_none]
              · simp only [List.filterMap_cons, Act.out?, List.filterMap_nil, List.nil_append,
                  List.map_cons, List.map_nil]
              · simp only [List.mem_map]
                rintro a ⟨_, _, rfl⟩
                rfl
            · cases h
  | listen next buffers => rw [hsch] at ht; cases ht
  | join next buffers clone serialize => rw [hsch] at ht; cases ht
  | transform next onError =>
    rw [hsch] at h
    cases h
    exact ⟨_, _, .transform, by simp, [reg.errTy],
      by simp only [List.filterMap_cons, Act.out?, List.filterMap_nil, List.map_cons,
          List.map_nil, List.cons_append, List.nil_append], by simp [Schema.nexts]⟩
  | streamOut name => rw [hsch] at ht; cases ht
  | template t connect => rw [hsch] at ht; cases ht
  | scope start next streams inner => exact absurd hsch (hs _ _ _ _)

/-- C75. When the build of a diagram succeeds, every operation that takes input (for scopes see
`C75_scope`) has types for its input and its outputs that are right for this operation. What is
connected to its input has the type of the input, or can be converted to it; its outputs, one for
each target it names, have the types of the outputs. -/
theorem C75_operation {reg : Registry} {io : Io} {ord : Order} {max : Nat} {d : Diagram} {s : St}
    (hd : d.Keyed) (hord : Drains ord) (h : create reg io ord max d = .ok s)
    {ns : List Name} {id : Name} {sch : Schema} (hat : d.Has ns id sch)
    (ht : sch.takesInput = true) (hs : ∀ a b c d, sch ≠ .scope a b c d) :
    ∃ ty tys, Typed reg sch ty tys ∧
      (∀ l, l ∈ s.links → l.into = .named ns none id → Fits reg l.out.ty ty) ∧
      ∃ ms : List (Out × Ref), ms.Sublist s.made ∧
        ms.map (·.2) = sch.nexts.map (fun n => (Ref.ofNext n).inNs ns) ∧
        ms.map (·.1.ty) = tys := by
  obtain ⟨inv, _⟩ := create_inv hd hord h
  obtain ⟨u, hu, rfl, rfl, rfl⟩ := inv.all hat
  obtain ⟨c, as, hb, ⟨ms, h1, h2, _⟩, h3⟩ := inv.did u hu
  obtain ⟨ty, tys, g1, g2, pre', g3, g4⟩ := build_typed hb ht hs
  refine ⟨ty, tys, g1, ?_, ?_⟩
  · intro l hl hi
    obtain ⟨t, h4, _, h5⟩ := h3 _ _ _ g2
    exact (create_ty h).slot h4 h5 hl hi
  · obtain ⟨pre, h4, _⟩ := build_outs hb
    have h5 : ms.map (·.2) = pre ++ u.schema.nexts.map (fun n => (Ref.ofNext n).inNs u.ns) := by
      rw [← h4, ← h2, List.map_map]
      rfl
    have h6 : ms.map (·.1.ty) = pre' ++ tys := by
      rw [← g3, ← h2, List.map_map]
      rfl
    obtain ⟨m1, m2, rfl, h7, h8⟩ := List.map_eq_append_iff.1 h5
    refine ⟨m2, (List.sublist_append_right _ _).trans h1, h8, ?_⟩
    rw [List.map_append] at h6
    have h9 : m2.length = tys.length := by
      have := congrArg List.length h8
      simp only [List.length_map] at this
      omega
    exact (List.append_inj' h6 (by simpa using h9)).2

/-- C75. What is connected to the response or to a stream of the whole diagram has the type of
the response or the stream, or can be converted to it. The request has the type of the
request. -/
theorem C75_io {reg : Registry} {io : Io} {ord : Order} {max : Nat} {d : Diagram} {s : St}
    (hd : d.Keyed) (hord : Drains ord) (h : create reg io ord max d = .ok s) :
    (∃ o : Out, o.ty = io.request ∧ (o, Ref.ofNext d.start) ∈ s.made) ∧
    (∀ l, l ∈ s.links → l.into = .terminate [] → Fits reg l.out.ty io.response) ∧
    ∀ name ty l, (name, ty) ∈ io.streams → l ∈ s.links → l.into = .streamOut [] name →
      Fits reg l.out.ty ty := by
  obtain ⟨inv, _⟩ := create_inv hd hord h
  refine ⟨?_, ?_, ?_⟩
  · obtain ⟨o, h1, h2, _⟩ := C44_start hd hord h
    exact ⟨o, h1, h2⟩
  · intro l hl hi
    obtain ⟨t, h1, _, h2⟩ := inv.firstTargets (.terminate []) (.slot io.response 0 []) 0
      (by simp [builtins])
    exact (create_ty h).slot h1 h2 hl hi
  · intro name ty l hm hl hi
    obtain ⟨t, h1, _, h2⟩ := inv.firstTargets (.streamOut [] name) (.slot ty 0 []) 0
      (by simp only [builtins, List.cons_append, List.mem_cons, List.mem_append, List.mem_map]
          exact .inr (.inr (.inl ⟨_, hm, rfl⟩)))
    exact (create_ty h).slot h1 h2 hl hi

theorem TyOk.hop {reg : Registry} {s : St} (h : TyOk reg (fun k => s.c.targets.lookup k) s.links)
    {r : Ref} {i o sc : Nat} {to : Ref} {ty : Ty} {cv : List Ty} {mate : Option Ref}
    (ht : s.c.targets.lookup r = some ⟨.hop i o to (some (ty, cv)) mate, sc⟩) {l : Link}
    (hl : l ∈ s.links) (hi : l.into = r) : Fits reg l.out.ty ty := by
  obtain ⟨t', h1, h2⟩ := h.2 l hl
  rw [hi] at h1
  have h1 : s.c.targets.lookup r = some t' := h1
  rw [ht] at h1
  cases h1
  rcases h2 with ⟨ty', h2, h3⟩ | ⟨_, _, h2⟩
  · cases h2
    exact h3
  · cases h2

/-- C75. The request of a scope has one type, inside and outside, and so does its response: what
is connected has this type or can be converted to it, and what is passed on has this type. -/
theorem C75_scope {reg : Registry} {io : Io} {ord : Order} {max : Nat} {d : Diagram} {s : St}
    (hd : d.Keyed) (hord : Drains ord) (h : create reg io ord max d = .ok s)
    {ns : List Name} {id : Name} {start next : Next} {streams : List (Name × Next)}
    {ops : List (Name × Schema)} (hat : d.Has ns id (.scope start next streams ops)) :
    (∃ o : Out, (o, (Ref.ofNext start).inNs (ns ++ [id])) ∈ s.made ∧
      ∀ l, l ∈ s.links → l.into = .named ns none id → Fits reg l.out.ty o.ty) ∧
    (∃ o : Out, (o, (Ref.ofNext next).inNs ns) ∈ s.made ∧
      ∀ l, l ∈ s.links → l.into = .terminate (ns ++ [id]) → Fits reg l.out.ty o.ty) ∧
    ∀ name n, (name, n) ∈ streams →
      (∀ l, l ∈ s.links → l.into ≠ .streamOut (ns ++ [id]) name) ∨
      ∃ o : Out, (o, (Ref.ofNext n).inNs ns) ∈ s.made ∧
        ∀ l, l ∈ s.links → l.into = .streamOut (ns ++ [id]) name → Fits reg l.out.ty o.ty := by
  obtain ⟨inv, hpend, hf⟩ := create_inv hd hord h
  have hops := create_hops h
  have hty := create_ty h
  obtain ⟨u, hu, rfl, rfl, hsch⟩ := inv.all hat
  obtain ⟨c, as, hb, _, h2⟩ := inv.did u hu
  unfold build at hb
  simp only [hsch] at hb
  cases hb
  have me : intoRef u.ns (Ref.ofNext (.name u.id)) = .named u.ns none u.id := by
    simp [intoRef, Ref.ofNext, Ref.inNs]
  have end_ : intoRef u.ns (.terminate [u.id]) = .terminate (u.ns ++ [u.id]) := by
    simp [intoRef, Ref.inNs]
  obtain ⟨t, ht, _, hc⟩ := h2 (intoRef u.ns (Ref.ofNext (.name u.id))) _ _
    (List.mem_append_right _ List.mem_cons_self)
  obtain ⟨t', ht', _, hc'⟩ := h2 (intoRef u.ns (.terminate [u.id])) _ _
    (List.mem_append_right _ (List.mem_cons_of_mem _ List.mem_cons_self))
  obtain ⟨cn, sc⟩ := t
  obtain ⟨cn', sc'⟩ := t'
  cases cn <;> simp only [Conn.core, reduceCtorEq] at hc
  rename_i i o to x mate
  cases cn' <;> simp only [Conn.core, reduceCtorEq] at hc'
  rename_i i' o' to' x' mate'
  simp only [Conn.hop.injEq, true_and] at hc hc'
  obtain ⟨rfl, rfl, rfl, rfl⟩ := hc
  obtain ⟨rfl, rfl, rfl, _⟩ := hc'
  have hf1 := List.all_eq_true.1 hf _ (mem_of_lookup ht)
  simp only [ht', Option.map_some, Option.getD_some, Conn.connected, Bool.and_eq_true,
    Option.isSome_iff_exists] at hf1
  obtain ⟨⟨⟨ty, cv⟩, rfl⟩, ⟨ty', cv'⟩, rfl⟩ := hf1
  obtain ⟨p, hp, hpt, _⟩ := hops _ (mem_of_lookup ht)
  obtain ⟨q, hq, hqt, _⟩ := hops _ (mem_of_lookup ht')
  have he : intoChildRef u.ns u.id (Ref.ofNext start) = (Ref.ofNext start).inNs (u.ns ++ [u.id]) := by
    cases start <;> simp [intoChildRef, Ref.ofNext, Ref.inNs]
  rw [he] at hp
  rw [me] at ht
  rw [end_] at ht'
  refine ⟨⟨p, hp, ?_⟩, ⟨q, hq, ?_⟩, ?_⟩
  · intro l hl hi
    rw [hpt]
    exact hty.hop ht hl hi
  · intro l hl hi
    rw [hqt]
    exact hty.hop ht' hl hi
  · intro name n hm
    obtain ⟨t2, ht2, _, hc2⟩ := h2 (intoRef u.ns (.streamOut [u.id] name))
      (.hop c.fresh u.scope (intoRef u.ns (Ref.ofNext n)) none none) u.scope (by
        refine List.mem_append_left _ (List.mem_append_left _ (List.mem_cons_of_mem _ ?_))
        exact List.mem_map.2 ⟨_, hm, rfl⟩)
    have e2 : intoRef u.ns (.streamOut [u.id] name) = .streamOut (u.ns ++ [u.id]) name := by
      simp [intoRef, Ref.inNs]
    rw [e2] at ht2
    obtain ⟨cn2, sc2⟩ := t2
    have hx : ∃ i2 o2 x2 mate2, cn2 = .hop i2 o2 (intoRef u.ns (Ref.ofNext n)) x2 mate2 := by
      cases cn2 with
      | hop i2 o2 to2 x2 mate2 =>
        simp only [Conn.core, Conn.hop.injEq] at hc2
        obtain ⟨_, _, rfl, _⟩ := hc2
        exact ⟨_, _, _, _, rfl⟩
      | _ => simp only [Conn.core, reduceCtorEq] at hc2
    obtain ⟨i2, o2, x2, mate2, rfl⟩ := hx
    cases x2 with
    | none =>
      left
      intro l hl hi
      obtain ⟨t3, h5, h6⟩ := hty.2 l hl
      rw [hi] at h5
      have h5 : s.c.targets.lookup (.streamOut (u.ns ++ [u.id]) name) = some t3 := h5
      rw [ht2] at h5
      cases h5
      rcases h6 with ⟨_, h6, _⟩ | ⟨_, _, h6⟩ <;> cases h6
    | some x =>
      obtain ⟨ty2, cv2⟩ := x
      obtain ⟨q2, hq2, hqt2, _⟩ := hops _ (mem_of_lookup ht2)
      refine .inr ⟨q2, hq2, ?_⟩
      intro l hl hi
      rw [hqt2]
      exact hty.hop ht2 hl hi

/-! ### C76: buffers -/

/-- C76. When the build of a diagram succeeds, every buffer access and every listener can be used
with its buffers: they exist, and where the layout of the operation asks for a type of buffer, they
have this type. The output of a listener is the type that the layout belongs to. -/
theorem C76_buffers {reg : Registry} {io : Io} {ord : Order} {max : Nat} {d : Diagram} {s : St}
    (hd : d.Keyed) (hord : Drains ord) (h : create reg io ord max d = .ok s)
    {ns : List Name} {id : Name} {next : Next} {buffers : List Next} :
    (d.Has ns id (.access next buffers) → ∃ ty msg hints, reg.access ty = some (msg, hints) ∧
      Holds s ns buffers hints ∧
      (∀ l, l ∈ s.links → l.into = .named ns none id → Fits reg l.out.ty msg) ∧
      ∃ o : Out, o.ty = ty ∧ (o, (Ref.ofNext next).inNs ns) ∈ s.made) ∧
    (d.Has ns id (.listen next buffers) → ∃ ty hints, reg.listen ty = some hints ∧
      Holds s ns buffers hints ∧
      ∃ o : Out, o.ty = ty ∧ (o, (Ref.ofNext next).inNs ns) ∈ s.made) := by
  obtain ⟨inv, _⟩ := create_inv hd hord h
  have hf := create_found hord h
  have hty := create_ty h
  refine ⟨fun hat => ?_, fun hat => ?_⟩
  · obtain ⟨u, hu, rfl, rfl, hsch⟩ := inv.all hat
    obtain ⟨c, as, hb, hk, _, h4, h5⟩ := hf.2 u hu
    have me : intoRef u.ns (Ref.ofNext (.name u.id)) = .named u.ns none u.id := by
      simp [intoRef, Ref.ofNext, Ref.inNs]
    unfold build at hb
    simp only [hsch, me] at hb
    split at hb
    · cases hb
    · cases hb
    · rename_i ty _
      split at hb
      · cases hb
      · rename_i msg hints ha
        split at hb
        · cases hb
        · rename_i hl
          have hl : hints.length = buffers.length := by omega
          split at hb
          · cases hb
          · rename_i tys hm
            split at hb
            · rename_i ho
              cases hb
              refine ⟨ty, msg, hints, ha, holds_of hk hl hm ho, ?_, ?_⟩
              · obtain ⟨t, h6, h7⟩ := h5 (.named u.ns none u.id) _ u.scope
                  (List.mem_append_right _ List.mem_cons_self)
                intro l hl hi
                exact hty.slot h6 h7 hl hi
              · exact h4 _ _ u.scope
                  (List.mem_append_right _ (List.mem_cons_of_mem _ List.mem_cons_self))
            · cases hb
  · obtain ⟨u, hu, rfl, rfl, hsch⟩ := inv.all hat
    obtain ⟨c, as, hb, hk, _, h4, _⟩ := hf.2 u hu
    unfold build at hb
    simp only [hsch] at hb
    split at hb
    · cases hb
    · cases hb
    · rename_i ty _
      split at hb
      · cases hb
      · rename_i hints ha
        split at hb
        · cases hb
        · rename_i hl
          have hl : hints.length = buffers.length := by omega
          split at hb
          · cases hb
          · rename_i tys hm
            split at hb
            · rename_i ho
              cases hb
              refine ⟨ty, hints, ha, holds_of hk hl hm ho, ?_⟩
              exact h4 _ _ u.scope (List.mem_append_right _ List.mem_cons_self)
            · cases hb

/-- C76. When the build of a diagram succeeds, every join has at least one buffer, all of them
exist, those that it clones from are of types that can be cloned, and it makes a message of a type
that is joined from buffers of these types, or a JSON message if all of them can be used as JSON. -/
theorem C76_joins {reg : Registry} {io : Io} {ord : Order} {max : Nat} {d : Diagram} {s : St}
    (hd : d.Keyed) (hord : Drains ord) (h : create reg io ord max d = .ok s)
    {ns : List Name} {id : Name} {next : Next} {buffers : List Next} {clone : List Nat}
    {ser : Bool} (hat : d.Has ns id (.join next buffers clone ser)) :
    ∃ ty tys, buffers ≠ [] ∧ Are s ns buffers tys ∧
      (∀ i, i ∈ clone → ∃ t, tys[i]? = some t ∧ reg.clone t = true) ∧
      (ser = true → ty = json ∧ ∀ t, t ∈ tys → reg.jsonBuf t = true) ∧
      (ser = false → ∃ hints, reg.join ty = some hints ∧ Holds s ns buffers hints) ∧
      ∃ o : Out, o.ty = ty ∧ (o, (Ref.ofNext next).inNs ns) ∈ s.made := by
  obtain ⟨inv, _⟩ := create_inv hd hord h
  have hf := create_found hord h
  obtain ⟨u, hu, rfl, rfl, hsch⟩ := inv.all hat
  obtain ⟨c, as, hb, hk, _, h4, _⟩ := hf.2 u hu
  unfold build at hb
  simp only [hsch] at hb
  split at hb
  · cases hb
  · rename_i he
    split at hb
    · cases hb
    · rename_i tys hm
      split at hb
      · cases hb
      · rename_i hc
        split at hb
        · cases hb
        · cases hb
        · rename_i ty hj
          cases hb
          refine ⟨ty, tys, fun e => he (by rw [e]; rfl), are_of hk hm, clones_of hc, ?_, ?_,
            h4 _ _ u.scope List.mem_cons_self⟩
          · rintro rfl
            simp only [joinType, if_true] at hj
            split at hj
            · rename_i ha
              cases hj
              exact ⟨rfl, List.all_eq_true.1 ha⟩
            · cases hj
          · rintro rfl
            simp only [joinType, Bool.false_eq_true, if_false] at hj
            split at hj
            · cases hj
            · cases hj
            · split at hj
              · cases hj
              · rename_i hints hr
                split at hj
                · rename_i ho
                  cases hj
                  have hl : hints.length = buffers.length := by
                    rw [layoutOk_length ho, ← (bufferMap_ok hm).1, List.length_map]
                  exact ⟨hints, hr, holds_of hk hl hm ho⟩
                · cases hj

/-- C76. A buffer operation makes a buffer of the type of its input. -/
theorem C76_value {reg : Registry} {io : Io} {ord : Order} {max : Nat} {d : Diagram} {s : St}
    (hd : d.Keyed) (hord : Drains ord) (h : create reg io ord max d = .ok s)
    {ns : List Name} {id : Name} {ser : Bool} (hat : d.Has ns id (.buffer ser)) :
    ∃ ty, s.c.bufs.lookup (.named ns none id) = some (.value ty) ∧ (ser = true → ty = json) ∧
      ∀ l, l ∈ s.links → l.into = .named ns none id → Fits reg l.out.ty ty := by
  obtain ⟨inv, _⟩ := create_inv hd hord h
  have hf := create_found hord h
  obtain ⟨u, hu, rfl, rfl, hsch⟩ := inv.all hat
  obtain ⟨c, as, hb, _, h3, _, h5⟩ := hf.2 u hu
  have me : intoRef u.ns (Ref.ofNext (.name u.id)) = .named u.ns none u.id := by
    simp [intoRef, Ref.ofNext, Ref.inNs]
  unfold build at hb
  simp only [hsch, me] at hb
  split at hb
  · cases hb
  · cases hb
  · rename_i ty hbt
    cases hb
    refine ⟨ty, h3 _ _ (by simp), ?_, ?_⟩
    · rintro rfl
      simp only [bufferType, if_true] at hbt
      cases hbt
      rfl
    · obtain ⟨t, h6, h7⟩ := h5 _ _ u.scope List.mem_cons_self
      intro l hl hi
      exact (create_ty h).slot h6 h7 hl hi

end Verif.Diagram
