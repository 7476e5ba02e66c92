import Verif.Diagram.Walk

/-
What the operations of a diagram leave in the construction.
-/
namespace Verif.Diagram

theorem outs_none {l : List Act} (h : ∀ a, a ∈ l → a.out? = none) : l.filterMap Act.out? = [] :=
  List.filterMap_eq_nil_iff.2 h

theorem outs_out {α : Type} (f : α → Ref) (g : α → Ty) (sc : Nat) (l : List α) :
    (l.map fun x => Act.out (f x) (g x) sc).filterMap Act.out? =
      l.map fun x => (f x, g x, sc) := by
  induction l with
  | nil => rfl
  | cons a rest ih =>
    rw [List.map_cons, List.filterMap_cons]
    simp only [Act.out?]
    rw [ih, List.map_cons]

theorem map_fst_zip {α β : Type} (l : List α) (m : List β) (h : m.length = l.length) :
    (l.zip m).map (·.1) = l := by
  rw [List.map_fst_zip]
  exact Nat.le_of_eq h.symm

/-- The outputs of a finished operation: those of its `nexts`, after the error output of a
transform. -/
theorem build_outs {reg : Registry} {ts : List (Name × Template)} {onErr : Ref} {u : UOp}
    {c : Cons} {as : List Act} (h : build reg ts onErr u c = .ok (as, .finished)) :
    ∃ pre, (as.filterMap Act.out?).map (·.1) =
      pre ++ u.schema.nexts.map (fun n => (Ref.ofNext n).inNs u.ns) ∧
      ∀ next onError, u.schema = .transform next onError →
        pre = [intoRef u.ns ((onError.map fun n => intoRef u.ns (Ref.ofNext n)).getD onErr)] := by
  unfold build at h
  simp only at h
  cases hsch : u.schema with
  | node inTy outTy next streams =>
    rw [hsch] at h
    cases h
    refine ⟨[], ?_, by simp⟩
    simp only [List.filterMap_cons, Act.out?]
    rw [outs_out (fun s : Ty × Next => intoRef u.ns (Ref.ofNext s.2)) (·.1)]
    simp [Schema.nexts, intoRef]
  | forkClone next =>
    rw [hsch] at h
    simp only at h
    split at h
    · cases h
    · cases h
    · rename_i ty _
      split at h
      · cases h
        refine ⟨[], ?_, by simp⟩
        simp only [List.filterMap_cons, Act.out?]
        rw [outs_out (fun n => intoRef u.ns (Ref.ofNext n)) (fun _ => ty)]
        simp [Schema.nexts, intoRef]
      · cases h
  | parts next =>
    rw [hsch] at h
    simp only at h
    split at h
    · cases h
    · cases h
    · split at h
      · cases h
      · rename_i tys _
        split at h
        · cases h
        · rename_i hl
          cases h
          refine ⟨[], ?_, by simp⟩
          simp only [List.filterMap_cons, Act.out?]
          rw [outs_out (fun p : Next × Ty => intoRef u.ns (Ref.ofNext p.1)) (·.2)]
          have := map_fst_zip next tys (by simpa using hl)
          have h2 : next.map (fun n => (Ref.ofNext n).inNs u.ns) =
              ((next.zip tys).map (·.1)).map (fun n => (Ref.ofNext n).inNs u.ns) := by
            rw [this]
          simp only [List.map_map, Schema.nexts, List.nil_append]
          rw [h2, List.map_map]
          rfl
  | buffer serialize =>
    rw [hsch] at h
    simp only at h
    split at h
    · cases h
    · cases h
    · cases h
      exact ⟨[], by simp [Schema.nexts, Act.out?], by simp⟩
  | access next buffers =>
    rw [hsch] at h
    simp only at h
    split at h
    · cases h
    · cases h
    · split at h
      · cases h
      · split at h
        · cases h
        · split at h
          · cases h
          · split at h
            · cases h
              refine ⟨[], ?_, by simp⟩
              rw [List.filterMap_append, outs_none]
              · rfl
              · simp only [List.mem_map]
                rintro a ⟨p, _, rfl⟩
                rfl
            · cases h
  | listen next buffers =>
    rw [hsch] at h
    simp only at h
    split at h
    · cases h
    · cases h
    · split at h
      · cases h
      · split at h
        · cases h
        · split at h
          · cases h
          · split at h
            · cases h
              refine ⟨[], ?_, by simp⟩
              rw [List.filterMap_append, outs_none]
              · rfl
              · simp only [List.mem_map]
                rintro a ⟨p, _, rfl⟩
                rfl
            · cases h
  | join next buffers clone serialize =>
    rw [hsch] at h
    simp only at h
    split at h
    · cases h
    · split at h
      · cases h
      · split at h
        · cases h
        · split at h
          · cases h
          · cases h
          · cases h
            exact ⟨[], by simp only [Schema.nexts, List.map_cons, List.map_nil]; rfl, by simp⟩
  | transform next onError =>
    rw [hsch] at h
    cases h
    refine ⟨[intoRef u.ns ((onError.map fun n => intoRef u.ns (Ref.ofNext n)).getD onErr)], ?_, ?_⟩
    · rfl
    · rintro next' onError' e
      cases e
      rfl
  | streamOut name =>
    rw [hsch] at h
    cases h
    exact ⟨[], by simp [Schema.nexts, Act.out?], by simp⟩
  | template t connect =>
    rw [hsch] at h
    simp only at h
    split at h
    · cases h
    · split at h
      · cases h
        refine ⟨[], ?_, by simp⟩
        rw [outs_none]
        · simp [Schema.nexts]
        · simp only [List.mem_append, List.mem_flatMap, List.mem_map, redirectInput,
            redirectBuffer, List.mem_cons, List.not_mem_nil, or_false]
          rintro a ((((⟨_, _, rfl⟩ | ⟨_, _, rfl⟩) | ⟨_, _, rfl | rfl⟩) | ⟨_, _, rfl⟩) | rfl) <;> rfl
      · cases h
  | scope start next streams ops =>
    rw [hsch] at h
    cases h
    refine ⟨[], ?_, by simp⟩
    rw [outs_none]
    · simp [Schema.nexts]
    · simp only [List.cons_append, List.mem_cons, List.mem_append, List.mem_map,
        List.not_mem_nil, or_false]
      rintro a (rfl | (⟨_, _, rfl⟩ | ⟨_, _, rfl⟩) | rfl | rfl) <;> rfl

/-- The targets that a finished operation sets. -/
theorem build_targets {reg : Registry} {ts : List (Name × Template)} {onErr : Ref} {u : UOp}
    {c : Cons} {as : List Act} (h : build reg ts onErr u c = .ok (as, .finished))
    {r : Ref} {conn : Conn} {scope : Nat} (hm : .target r conn scope ∈ as) :
    (r = .named u.ns none u.id ∧
      ((∃ n, u.schema = .streamOut n ∧ conn = .redirect (.streamOut u.ns n) []) ∨
        (u.schema.takesInput = true ∧ conn ≠ .dispose ∧ ∀ to seen, conn ≠ .redirect to seen))) ∨
    ((∃ slot, r = .named u.ns (some u.id) slot) ∧ ∃ t con, u.schema = .template t con) ∨
    ((∃ out, r = .named (u.ns ++ [u.id]) none out) ∧ ∃ t con, u.schema = .template t con) ∨
    (r = .terminate (u.ns ++ [u.id]) ∧ ((∃ t con, u.schema = .template t con) ∨
      ∃ start next streams ops, u.schema = .scope start next streams ops)) ∨
    (∃ n, r = .streamOut (u.ns ++ [u.id]) n ∧
      ∃ start next streams ops, u.schema = .scope start next streams ops) := by
  have me : intoRef u.ns (Ref.ofNext (.name u.id)) = .named u.ns none u.id := by
    simp [intoRef, Ref.ofNext, Ref.inNs]
  unfold build at h
  simp only at h
  cases hsch : u.schema with
  | node inTy outTy next streams =>
    rw [hsch] at h
    cases h
    simp only [List.mem_cons, List.mem_map, reduceCtorEq, and_false, exists_false,
      or_false, Act.target.injEq] at hm
    obtain ⟨rfl, rfl, rfl⟩ := hm
    exact .inl ⟨me, .inr ⟨rfl, by simp, by simp⟩⟩
  | forkClone next =>
    rw [hsch] at h
    simp only at h
    split at h
    · cases h
    · cases h
    · split at h
      · cases h
        simp only [List.mem_cons, List.mem_map, reduceCtorEq, and_false, exists_false,
          or_false, Act.target.injEq] at hm
        obtain ⟨rfl, rfl, rfl⟩ := hm
        exact .inl ⟨me, .inr ⟨rfl, by simp, by simp⟩⟩
      · cases h
  | parts next =>
    rw [hsch] at h
    simp only at h
    split at h
    · cases h
    · cases h
    · split at h
      · cases h
      · split at h
        · cases h
        · cases h
          simp only [List.mem_cons, List.mem_map, reduceCtorEq, and_false, exists_false,
            or_false, Act.target.injEq] at hm
          obtain ⟨rfl, rfl, rfl⟩ := hm
          exact .inl ⟨me, .inr ⟨rfl, by simp, by simp⟩⟩
  | buffer serialize =>
    rw [hsch] at h
    simp only at h
    split at h
    · cases h
    · cases h
    · cases h
      simp only [List.mem_cons, List.not_mem_nil, reduceCtorEq, or_false,
        Act.target.injEq] at hm
      obtain ⟨rfl, rfl, rfl⟩ := hm
      exact .inl ⟨me, .inr ⟨rfl, by simp, by simp⟩⟩
  | access next buffers =>
    rw [hsch] at h
    simp only at h
    split at h
    · cases h
    · cases h
    · split at h
      · cases h
      · split at h
        · cases h
        · split at h
          · cases h
          · split at h
            · cases h
              simp only [List.mem_append, List.mem_cons, List.mem_map, List.not_mem_nil,
                reduceCtorEq, and_false, exists_false, false_or, or_false,
                Act.target.injEq] at hm
              obtain ⟨rfl, rfl, rfl⟩ := hm
              exact .inl ⟨me, .inr ⟨rfl, by simp, by simp⟩⟩
            · cases h
  | listen next buffers =>
    rw [hsch] at h
    simp only at h
    split at h
    · cases h
    · cases h
    · split at h
      · cases h
      · split at h
        · cases h
        · split at h
          · cases h
          · split at h
            · cases h
              simp at hm
            · cases h
  | join next buffers clone serialize =>
    rw [hsch] at h
    simp only at h
    split at h
    · cases h
    · split at h
      · cases h
      · split at h
        · cases h
        · split at h
          · cases h
          · cases h
          · cases h
            simp at hm
  | transform next onError =>
    rw [hsch] at h
    cases h
    simp only [List.mem_cons, List.not_mem_nil, reduceCtorEq, false_or, or_false,
      Act.target.injEq] at hm
    obtain ⟨rfl, rfl, rfl⟩ := hm
    exact .inl ⟨me, .inr ⟨rfl, by simp, by simp⟩⟩
  | streamOut name =>
    rw [hsch] at h
    cases h
    simp only [List.mem_cons, List.not_mem_nil, or_false, Act.target.injEq] at hm
    obtain ⟨rfl, rfl, rfl⟩ := hm
    exact .inl ⟨me, .inl ⟨name, rfl, by simp [intoRef, Ref.inNs]⟩⟩
  | template t connect =>
    rw [hsch] at h
    simp only at h
    split at h
    · cases h
    · split at h
      · cases h
        simp only [List.mem_append, List.mem_flatMap, List.mem_map, redirectInput,
          redirectBuffer, redirectOutput, List.mem_cons, List.not_mem_nil, or_false,
          reduceCtorEq, and_false, exists_false, false_or, Act.target.injEq] at hm
        rcases hm with ((⟨e, _, rfl, _⟩ | ⟨e, _, rfl, _⟩) | ⟨o, _, rfl, _⟩) | ⟨rfl, _⟩
        · exact .inr (.inl ⟨⟨e.1, rfl⟩, t, connect, rfl⟩)
        · exact .inr (.inl ⟨⟨e.1, rfl⟩, t, connect, rfl⟩)
        · refine .inr (.inr (.inl ⟨⟨o, ?_⟩, t, connect, rfl⟩))
          simp [outputSlot, Ref.inNs]
        · refine .inr (.inr (.inr (.inl ⟨?_, .inl ⟨t, connect, rfl⟩⟩)))
          simp [intoRef, Ref.inNs]
      · cases h
  | scope start next streams ops =>
    rw [hsch] at h
    cases h
    simp only [List.cons_append, List.mem_cons, List.mem_append, List.mem_map,
      List.not_mem_nil, or_false, reduceCtorEq, and_false, exists_false, false_or,
      Act.target.injEq] at hm
    rcases hm with ⟨e, _, rfl, _⟩ | ⟨rfl, rfl, _⟩ | ⟨rfl, rfl, _⟩
    · refine .inr (.inr (.inr (.inr ⟨e.1, ?_, _, _, _, _, rfl⟩)))
      simp [intoRef, Ref.inNs]
    · exact .inl ⟨me, .inr ⟨rfl, by simp, by simp⟩⟩
    · refine .inr (.inr (.inr (.inl ⟨?_, .inr ⟨_, _, _, _, rfl⟩⟩)))
      simp [intoRef, Ref.inNs]

/-- A finished operation sets a target under its own name, when it takes input. -/
theorem build_own {reg : Registry} {ts : List (Name × Template)} {onErr : Ref} {u : UOp}
    {c : Cons} {as : List Act} (h : build reg ts onErr u c = .ok (as, .finished))
    (ht : u.schema.takesInput = true) :
    ∃ conn, .target (.named u.ns none u.id) conn u.scope ∈ as ∧ conn ≠ .dispose ∧
      ∀ to seen, conn ≠ .redirect to seen := by
  have me : intoRef u.ns (Ref.ofNext (.name u.id)) = .named u.ns none u.id := by
    simp [intoRef, Ref.ofNext, Ref.inNs]
  unfold build at h
  rw [me] at h
  simp only at h
  cases hsch : u.schema with
  | node inTy outTy next streams =>
    rw [hsch] at h
    cases h
    exact ⟨_, List.mem_cons_self, by simp, by simp⟩
  | forkClone next =>
    rw [hsch] at h
    simp only at h
    split at h
    · cases h
    · cases h
    · split at h
      · cases h
        exact ⟨_, List.mem_cons_self, by simp, by simp⟩
      · cases h
  | parts next =>
    rw [hsch] at h
    simp only at h
    split at h
    · cases h
    · cases h
    · split at h
      · cases h
      · split at h
        · cases h
        · cases h
          exact ⟨_, List.mem_cons_self, by simp, by simp⟩
  | buffer serialize =>
    rw [hsch] at h
    simp only at h
    split at h
    · cases h
    · cases h
    · cases h
      exact ⟨_, List.mem_cons_self, by simp, by simp⟩
  | access next buffers =>
    rw [hsch] at h
    simp only at h
    split at h
    · cases h
    · cases h
    · split at h
      · cases h
      · split at h
        · cases h
        · split at h
          · cases h
          · split at h
            · cases h
              exact ⟨_, List.mem_append_right _ List.mem_cons_self, by simp, by simp⟩
            · cases h
  | transform next onError =>
    rw [hsch] at h
    cases h
    exact ⟨_, List.mem_cons_of_mem _ List.mem_cons_self, by simp, by simp⟩
  | scope start next streams ops =>
    rw [hsch] at h
    cases h
    exact ⟨_, List.mem_append_right _ List.mem_cons_self, by simp, by simp⟩
  | listen next buffers => rw [hsch] at ht; cases ht
  | join next buffers clone serialize => rw [hsch] at ht; cases ht
  | streamOut name => rw [hsch] at ht; cases ht
  | template t connect => rw [hsch] at ht; cases ht

/-- An output is made for one target. -/
theorem made_unique {made : List (Out × Ref)} (hnd : (made.map (·.1.id)).Nodup) {o : Out}
    {r r' : Ref} (hr' : (o, r') ∈ made) (hr : (o, r) ∈ made) : r' = r := by
  have key : ∀ (l : List (Out × Ref)), (l.map (·.1.id)).Nodup → ∀ a b, a ∈ l → b ∈ l →
      a.1.id = b.1.id → a = b := by
    intro l
    induction l with
    | nil => intro _ a b ha; cases ha
    | cons x rest ih =>
      intro hnd a b ha hb hab
      rw [List.map_cons, List.nodup_cons] at hnd
      rcases List.mem_cons.1 ha with h1 | h1 <;> rcases List.mem_cons.1 hb with h2 | h2
      · rw [h1, h2]
      · rw [h1] at hab
        exact absurd (List.mem_map.2 ⟨b, h2, hab.symm⟩) hnd.1
      · rw [h2] at hab
        exact absurd (List.mem_map.2 ⟨a, h1, hab⟩) hnd.1
      · exact ih hnd.2 a b h1 h2 hab
  exact congrArg Prod.snd (key _ hnd (o, r') (o, r) hr' hr rfl)

/-- An output whose books are closed. -/
theorem St.Ok.settled {s : St} (h : s.Ok) (hp : flat s.c.outs = []) {o : Out} {r : Ref}
    (hm : (o, r) ∈ s.made) : Connected s o r ∨ Disposed s o r ∨ Lost s o r := by
  obtain ⟨led, _⟩ := h
  rw [hp] at led
  have same : ∀ r', (o, r') ∈ s.made → r' = r := fun r' hr' => made_unique led.nodup hr' hm
  have ho : o ∈ s.made.map (·.1) := List.mem_map.2 ⟨_, hm, rfl⟩
  have ho := led.perm.mem_iff.1 ho
  simp only [List.map_nil, List.nil_append, List.mem_append, List.mem_map] at ho
  rcases ho with ⟨l, hl, rfl⟩ | ⟨e, he, rfl⟩ | ⟨e, he, rfl⟩
  · obtain ⟨r', h1, h2, t, h3, h4, h5⟩ := led.linkFrom l hl
    rw [same r' h1] at h2
    exact .inl ⟨l, t, hl, rfl, h2, h3, h4, h5⟩
  · obtain ⟨r', h1, h2, scope, h3⟩ := led.dispFrom e he
    rw [same r' h1] at h2
    exact .inr (.inl ⟨e.2, scope, he, h2, h3⟩)
  · obtain ⟨r', h1, h2, h3⟩ := led.lostFrom e he
    rw [same r' h1] at h2
    rcases h3 with h3 | ⟨_, h3⟩
    · obtain ⟨t, ht⟩ := Option.isSome_iff_exists.1 h3
      exact .inr (.inr ⟨e.2, t, he, h2, ht⟩)
    · cases h3

end Verif.Diagram
