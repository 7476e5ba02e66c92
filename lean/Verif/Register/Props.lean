import Verif.Register.Tags

/-
Properties of the registry of diagram elements: C96, C97, C98, C99.
-/
namespace Verif.Register

variable (T : Types)

theorem blank_sup (k : Ty) (op : Op) : ¬ Sup (blank T) k op := by
  simp only [Sup, get, blank]
  split <;> simp [Reg.new]

theorem blank_known (k : Ty) : Known (blank T) k ↔ k = T.json := by
  simp only [Known, blank]
  split <;> simp_all

theorem blank_tagged : Tagged (blank T) := by
  intro k r h
  simp only [blank] at h
  split at h
  · cases h
    exact ⟨rfl, by intro op x hx; simp [Reg.new] at hx, by simp [Reg.new]⟩
  · cases h

theorem clash (cs : List Call) (h : OneResult cs) : NoClash (cs.flatMap (callPrims T)) := by
  rintro t ⟨h1, h2⟩
  obtain ⟨c, hc, h1⟩ := List.mem_flatMap.1 h1
  obtain ⟨d, hd, h2⟩ := List.mem_flatMap.1 h2
  exact h t ⟨c, hc, (result_call c true t).1 h1⟩ ⟨d, hd, (result_call d false t).1 h2⟩

/-! ### C96: the registry supports what was asked for -/

/-- Nothing is supported that was not asked for. -/
theorem C96_sound (cs : List Call) (k : Ty) (op : Op)
    (h : (get (run T cs (blank T)) k op).isSome = true) : ∃ c, c ∈ cs ∧ c.Asks T k op := by
  rw [run_steps] at h
  rcases steps_sound _ _ k op h with h | h
  · exact absurd h (blank_sup T k op)
  · exact (run_asks cs k op).1 h

/-- Everything that was asked for is supported, other than serialization and cloning. -/
theorem C96_others (cs : List Call) (k : Ty) (op : Op) (ho : op ≠ .serialize ∧ op ≠ .clone) :
    (get (run T cs (blank T)) k op).isSome = true ↔ ∃ c, c ∈ cs ∧ c.Asks T k op := by
  refine ⟨C96_sound T cs k op, fun h => ?_⟩
  rw [run_steps]
  refine steps_adds_other _ _ k op ?_ ((run_asks cs k op).2 h)
  rintro (h | h)
  · exact ho.1 h
  · exact ho.2 h

/-- Everything that was asked for is supported, if no type was registered as a result both in
full and minimally. -/
theorem C96_exact_partial (cs : List Call) (hc : OneResult cs) (k : Ty) (op : Op) :
    (get (run T cs (blank T)) k op).isSome = true ↔ ∃ c, c ∈ cs ∧ c.Asks T k op := by
  refine ⟨C96_sound T cs k op, fun h => ?_⟩
  rw [run_steps]
  refine steps_adds _ _ k op (clash T cs hc) (run_plain cs) ?_ ((run_asks cs k op).2 h)
  intro t _ h
  exact absurd h (blank_sup T t .result)

/-- The order of registrations does not matter for what is supported. -/
theorem C96_order_partial (cs cs' : List Call) (hp : cs.Perm cs') (hc : OneResult cs) (k : Ty)
    (op : Op) : (get (run T cs (blank T)) k op).isSome = (get (run T cs' (blank T)) k op).isSome := by
  have hc' : OneResult cs' := by
    rintro t ⟨c, h1, h2⟩ ⟨d, h3, h4⟩
    exact hc t ⟨c, hp.mem_iff.2 h1, h2⟩ ⟨d, hp.mem_iff.2 h3, h4⟩
  rw [Bool.eq_iff_iff, C96_exact_partial T cs hc, C96_exact_partial T cs' hc']
  constructor
  · rintro ⟨c, h, ha⟩; exact ⟨c, hp.mem_iff.1 h, ha⟩
  · rintro ⟨c, h, ha⟩; exact ⟨c, hp.mem_iff.2 h, ha⟩

/-- Further registrations take nothing away, in whatever state the registry is. -/
theorem C96_monotone (cs : List Call) (s : St) (k : Ty) (op : Op)
    (h : (get s k op).isSome = true) : (get (run T cs s) k op).isSome = true := by
  rw [run_steps]
  exact steps_mono _ _ k op h

/-- Types for the examples: 0 is JSON, 1 is `Result<2, 3>`, 4 is a tuple of 2 and 3, `Vec<t>` is
`t + 100`, and JSON splits into JSON. -/
def exTypes : Types where
  vec t := t + 100
  ok _ := 2
  err _ := 3
  elems t := if t = 4 then [2, 3] else []
  item _ := 0
  json := 0

/-- Registrations for the examples. -/
def exCalls : List Call :=
  builtin exTypes 9 [5, 6] ++
  [.node ⟨false, false, false⟩ 0 6 1 [.result true, .cloneResponse],
   .message ⟨true, false, true⟩ 4 [.unzip false, .join],
   .section_ [(⟨false, true, false⟩, 7, [.listen]), (⟨true, true, true⟩, 5, [])],
   .node ⟨true, true, true⟩ 0 5 6 [.join, .requestToString]]

example : OneResult exCalls := by
  rintro t - ⟨c, hc, h⟩
  simp only [exCalls, builtin, List.map, List.cons_append, List.nil_append, List.mem_cons,
    List.not_mem_nil, or_false] at hc
  rcases hc with rfl | rfl | rfl | rfl | rfl | rfl | rfl | rfl <;> simp [Call.Result] at h

-- a response that was registered with no common operation is a result, whose variants can be
-- serialized
example : (get (run exTypes exCalls (blank exTypes)) 1 .result).isSome = true ∧
    (get (run exTypes exCalls (blank exTypes)) 1 .serialize).isSome = false ∧
    (get (run exTypes exCalls (blank exTypes)) 2 .serialize).isSome = true := by decide +kernel

/-- A type that is registered as a result minimally, and then in full, perhaps by another
library: its variants can be neither serialized nor cloned, although the second registration
asks for it. In the other order they can. -/
theorem C96_violated :
    let mini : Call := .message ⟨true, true, true⟩ 1 [.result false]
    let full : Call := .message ⟨true, true, true⟩ 1 [.result true]
    full.Asks exTypes 2 .serialize ∧
      (get (run exTypes [mini, full] (blank exTypes)) 2 .serialize).isSome = false ∧
      (get (run exTypes [mini, full] (blank exTypes)) 3 .clone).isSome = false ∧
      (get (run exTypes [full, mini] (blank exTypes)) 2 .serialize).isSome = true ∧
      (get (run exTypes [full, mini] (blank exTypes)) 3 .clone).isSome = true := by
  refine ⟨.inr (.inr ⟨.result true, List.mem_cons_self, .inr ⟨rfl, ?_, .inl rfl⟩⟩), ?_, ?_, ?_, ?_⟩
  · decide +kernel
  all_goals decide +kernel

/-! ### C97: what is made for a type is for that type -/

/-- The operations, buffers, triggers and scopes that are made for messages of a type are made
for that type. They can be made for the types that were named by a registration and for JSON
messages; and a schema is there exactly for the types that can be serialized or deserialized. -/
theorem C97_types (cs : List Call) (k : Ty) :
    let s := run T cs (blank T)
    (∀ t, basic s k = some t → t = k) ∧
    (∀ op t, get s k op = some t → t = k) ∧
    ((basic s k).isSome = true ↔ k = T.json ∨ ∃ c, c ∈ cs ∧ c.Mentions T k) ∧
    (∀ r, s.messages k = some r →
      (r.schema = true ↔ ((get s k .deserialize).isSome = true ∨
        (get s k .serialize).isSome = true))) := by
  intro s
  have ht : Tagged s := run_tagged cs _ (blank_tagged T)
  refine ⟨?_, ?_, ?_, ?_⟩
  · intro t h
    simp only [basic] at h
    cases e : s.messages k with
    | none => rw [e] at h; cases h
    | some r =>
      rw [e] at h
      cases h
      exact (ht k r e).1
  · intro op t h
    simp only [get] at h
    cases e : s.messages k with
    | none => rw [e] at h; cases h
    | some r =>
      rw [e] at h
      exact (ht k r e).2.1 op t h
  · have hk : Known s k ↔ Known (blank T) k ∨
        ∃ p, p ∈ cs.flatMap (callPrims T) ∧ p.Mentions T k := by
      show Known (run T cs (blank T)) k ↔ _
      rw [run_steps]
      refine steps_known _ _ ?_ (run_plain cs) k
      intro t h
      exact absurd h (blank_sup T t .result)
    have : (basic s k).isSome = true ↔ Known s k := by simp [basic, Known]
    rw [this, hk, blank_known, ex_flatMap]
    simp only [call_mentions]
  · intro r e
    simp only [get, e, Option.bind_some]
    exact (ht k r e).2.2

example : basic (run exTypes exCalls (blank exTypes)) 106 = some 106 ∧
    basic (run exTypes exCalls (blank exTypes)) 3 = some 3 ∧
    basic (run exTypes exCalls (blank exTypes)) 8 = none := by decide +kernel

/-! ### C98: JSON buffers and clones from buffers -/

/-- JSON buffers can be used for the types for which one registration enables serialization and
deserialization at once. -/
theorem C98_exact (cs : List Call) (k : Ty) :
    (run T cs (blank T)).jsonBuffer k = true ↔ ∃ c, c ∈ cs ∧ c.Both k := by
  rw [run_steps, steps_json, List.mem_flatMap]
  have : ∀ c : Call, Prim.json k ∈ callPrims T c ↔ c.Both k := by
    intro c
    cases c with
    | message o t withs => exact json_message _ _ _ _
    | node o id req resp withs =>
      simp only [callPrims, List.mem_append, json_common, List.mem_flatMap, json_nodeWith,
        List.mem_cons, List.not_mem_nil, or_false, reduceCtorEq, Call.Both]
      constructor
      · rintro ((h | h) | ⟨w, hw, ⟨rfl, h⟩ | ⟨rfl, h⟩⟩)
        · exact .inl ⟨.inl h.1, h.2⟩
        · exact .inl ⟨.inr h.1, h.2⟩
        · exact .inr (.inl ⟨h, hw⟩)
        · exact .inr (.inr ⟨h, hw⟩)
      · rintro (⟨h | h, h'⟩ | ⟨h, hw⟩ | ⟨h, hw⟩)
        · exact .inl (.inl ⟨h, h'⟩)
        · exact .inl (.inr ⟨h, h'⟩)
        · exact .inr ⟨_, hw, .inl ⟨rfl, h⟩⟩
        · exact .inr ⟨_, hw, .inr ⟨rfl, h⟩⟩
    | section_ fields =>
      simp only [callPrims, List.mem_flatMap, json_message, Call.Both]
  simp only [this]
  simp [blank]

/-- JSON buffers can be used only for types that can be serialized and deserialized. -/
theorem C98_json_partial (cs : List Call) (k : Ty)
    (h : (run T cs (blank T)).jsonBuffer k = true) :
    (get (run T cs (blank T)) k .serialize).isSome = true ∧
      (get (run T cs (blank T)) k .deserialize).isSome = true := by
  obtain ⟨c, hc, hb⟩ := (C98_exact T cs k).1 h
  -- the elementary registrations that are made together with that of the buffer
  have hp : Prim.ser k ∈ callPrims T c ∧ Prim.de k ∈ callPrims T c := by
    have hcommon : ∀ (o : Common) t, k = t → o.ser = true → o.de = true →
        Prim.ser k ∈ commonPrims o t ∧ Prim.de k ∈ commonPrims o t := by
      rintro ⟨a, b, d⟩ t rfl h1 h2
      simp only at h1 h2
      subst h1 h2
      simp [commonPrims]
    have hmessage : ∀ (o : Common) t withs, k = t → o.ser = true → o.de = true →
        Prim.ser k ∈ messagePrims T o t withs ∧ Prim.de k ∈ messagePrims T o t withs := by
      intro o t withs h1 h2 h3
      have := hcommon o t h1 h2 h3
      simp [messagePrims, this.1, this.2]
    cases c with
    | message o t withs => exact hmessage o t withs hb.1 hb.2.1 hb.2.2
    | node o id req resp withs =>
      rcases hb with ⟨h | h, h1, h2⟩ | ⟨h, hw⟩ | ⟨h, hw⟩
      · have := hcommon o req h h1 h2
        simp [callPrims, this.1, this.2]
      · have := hcommon o resp h h1 h2
        simp [callPrims, this.1, this.2]
      · have := hmessage ⟨true, true, true⟩ req [] h rfl rfl
        exact ⟨List.mem_append_right _ (List.mem_flatMap.2 ⟨_, hw, this.1⟩),
          List.mem_append_right _ (List.mem_flatMap.2 ⟨_, hw, this.2⟩)⟩
      · have := hmessage ⟨true, true, true⟩ resp [] h rfl rfl
        exact ⟨List.mem_append_right _ (List.mem_flatMap.2 ⟨_, hw, this.1⟩),
          List.mem_append_right _ (List.mem_flatMap.2 ⟨_, hw, this.2⟩)⟩
    | section_ fields =>
      obtain ⟨f, hf, h1, h2, h3⟩ := hb
      have := hmessage f.1 f.2.1 f.2.2 h1 h2 h3
      exact ⟨List.mem_flatMap.2 ⟨f, hf, this.1⟩, List.mem_flatMap.2 ⟨f, hf, this.2⟩⟩
  have hrun : ∀ p, p ∈ callPrims T c → ∀ op, p.Asks T k op →
      (∀ t, p ≠ .result true t) → Sup (run T cs (blank T)) k op := by
    intro p hpc op ha hnr
    rw [run_steps]
    have hm : p ∈ cs.flatMap (callPrims T) := List.mem_flatMap.2 ⟨c, hc, hpc⟩
    generalize cs.flatMap (callPrims T) = ps at hm
    generalize blank T = s
    induction ps generalizing s with
    | nil => cases hm
    | cons q ps ih =>
      rcases List.mem_cons.1 hm with rfl | hm
      · exact steps_mono ps _ k op (step_adds s p k op ha fun t e => absurd e (hnr t))
      · exact ih hm _
  exact ⟨hrun _ hp.1 .serialize ⟨rfl, rfl⟩ (by simp),
    hrun _ hp.2 .deserialize ⟨rfl, rfl⟩ (by simp)⟩

/-- Buffers can be joined by cloning exactly for the types that can be cloned. -/
theorem C98_clone (cs : List Call) (k : Ty) :
    (run T cs (blank T)).cloneBuffer k = (get (run T cs (blank T)) k .clone).isSome := by
  have : CloneSame (run T cs (blank T)) := by
    rw [run_steps]
    refine steps_same _ _ ?_ ?_
    · intro t h
      obtain ⟨c, _, h⟩ := List.mem_flatMap.1 h
      exact noClone_call c t h
    · intro k
      have := blank_sup T k .clone
      simp [blank] at this ⊢
      exact this
  rw [Bool.eq_iff_iff]
  exact this k

example : (run exTypes exCalls (blank exTypes)).jsonBuffer 5 = true ∧
    (run exTypes exCalls (blank exTypes)).jsonBuffer 7 = false ∧
    (run exTypes exCalls (blank exTypes)).cloneBuffer 1 = true := by decide +kernel

/-- A type that is the response of one node and the request of another, with serialization and
deserialization enabled where they are needed: it can be serialized and deserialized, but JSON
buffers cannot be used for it. -/
theorem C98_violated :
    let cs : List Call :=
      [.node ⟨false, false, false⟩ 0 6 5 [.serializeResponse],
       .node ⟨false, false, false⟩ 1 5 7 [.deserializeRequest]]
    (get (run exTypes cs (blank exTypes)) 5 .serialize).isSome = true ∧
      (get (run exTypes cs (blank exTypes)) 5 .deserialize).isSome = true ∧
      (run exTypes cs (blank exTypes)).jsonBuffer 5 = false := by
  decide +kernel

/-! ### C99: nodes are found under their names -/

/-- A name stands for the last node that was registered under it, whatever else was registered;
and buffers and scopes can be made for the types of the node. -/
theorem C99_nodes (cs : List Call) (id : Nat) :
    getNode (run T cs (blank T)) id = lastNode id cs ∧
    ∀ n, getNode (run T cs (blank T)) id = some n →
      basic (run T cs (blank T)) n.request = some n.request ∧
      basic (run T cs (blank T)) n.response = some n.response := by
  have h1 : getNode (run T cs (blank T)) id = lastNode id cs := by
    rw [getNode, run_nodes]
    simp [blank]
  refine ⟨h1, fun n hn => ?_⟩
  rw [h1] at hn
  have hm : ∃ c, c ∈ cs ∧ c.Mentions T n.request ∧ c.Mentions T n.response := by
    clear h1
    induction cs with
    | nil => cases hn
    | cons c cs ih =>
      rw [lastNode_cons] at hn
      cases e : lastNode id cs with
      | some m =>
        rw [e] at hn ih
        cases hn
        obtain ⟨c, hc, h⟩ := ih rfl
        exact ⟨c, List.mem_cons_of_mem _ hc, h⟩
      | none =>
        rw [e] at hn
        cases c with
        | node o id' req resp withs =>
          simp only [Option.none_or, Call.node?] at hn
          split at hn
          · cases hn
            exact ⟨_, List.mem_cons_self, .inl rfl, .inr (.inl rfl)⟩
          · cases hn
        | message o t withs => simp [Call.node?] at hn
        | section_ fields => simp [Call.node?] at hn
  obtain ⟨c, hc, hq, hr⟩ := hm
  have key : ∀ k, c.Mentions T k → basic (run T cs (blank T)) k = some k := by
    intro k hk
    obtain ⟨h1, _, h3, _⟩ := C97_types T cs k
    obtain ⟨t, ht⟩ := Option.isSome_iff_exists.1 (h3.2 (.inr ⟨c, hc, hk⟩))
    rw [ht, h1 t ht]
  exact ⟨key _ hq, key _ hr⟩

example : getNode (run exTypes exCalls (blank exTypes)) 0 = some ⟨5, 6⟩ ∧
    getNode (run exTypes exCalls (blank exTypes)) 1 = none := by decide +kernel

end Verif.Register
