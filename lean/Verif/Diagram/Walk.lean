import Verif.Diagram.Ledger
import Verif.Diagram.BuildSpec

/-
What the diagram builder has done so far: which operations it has built, and what became of
their targets and outputs.
-/
namespace Verif.Diagram

/-- The operations directly inside of an operation. -/
def kidsOf (ts : List (Name × Template)) : Schema → List (Name × Schema)
  | .template t _ => ((ts.lookup t).map (·.ops)).getD []
  | .scope _ _ _ ops => ops
  | _ => []

/-- The child that a call adds. -/
def Act.kid? : Act → Option UOp
  | .child u => some u
  | _ => none

/-- The output that a call adds: its target, its type and its scope. -/
def Act.out? : Act → Option (Ref × Ty × Nat)
  | .out to ty scope => some (to, ty, scope)
  | _ => none

/-- What is known of an output when it is made. -/
def born (e : Out × Ref) : Ref × Ty × Nat := (e.2, e.1.ty, e.1.scope)

theorem kids_none {l : List Act} (h : ∀ a, a ∈ l → a.kid? = none) : l.filterMap Act.kid? = [] :=
  List.filterMap_eq_nil_iff.2 h

theorem kids_child {α : Type} (f : α → UOp) (l : List α) :
    (l.map fun x => Act.child (f x)).filterMap Act.kid? = l.map f := by
  induction l with
  | nil => rfl
  | cons a rest ih =>
    rw [List.map_cons, List.filterMap_cons]
    simp only [Act.kid?]
    rw [ih, List.map_cons]

/-- What `build` returns: a deferred operation only leaves hints, a finished one adds the
operations inside of it. -/
theorem build_spec {reg : Registry} {ts : List (Name × Template)} {onErr : Ref} {u : UOp}
    {c : Cons} {as : List Act} {st : Status} (h : build reg ts onErr u c = .ok (as, st)) :
    (∀ q, st = .deferred q → q = false ∧ ∀ a, a ∈ as → ∃ r x, a = .hint r x) ∧
    (st = .finished → ∃ scope, as.filterMap Act.kid? =
      ((kidsOf ts u.schema).map fun e => ⟨e.1, u.ns ++ [u.id], e.2, scope⟩) ∧
      (kidsOf ts u.schema = [] ∨ ((∃ t c, u.schema = .template t c) ∧ scope = u.scope) ∨
        ((∃ a b c d, u.schema = .scope a b c d) ∧
          ∃ to mate, .target (.named u.ns none u.id) (.hop u.scope scope to none mate) u.scope ∈
            as))) := by
  unfold build at h
  simp only at h
  cases hsch : u.schema with
  | node inTy outTy next streams =>
    rw [hsch] at h
    cases h
    refine ⟨by simp, fun _ => ⟨0, kids_none ?_, .inl rfl⟩⟩
    simp only [List.mem_cons, List.mem_map]
    rintro a (rfl | rfl | ⟨_, _, rfl⟩) <;> rfl
  | forkClone next =>
    rw [hsch] at h
    simp only at h
    split at h
    · cases h
    · cases h; exact ⟨by simp, by simp⟩
    · split at h
      · cases h
        refine ⟨by simp, fun _ => ⟨0, kids_none ?_, .inl rfl⟩⟩
        simp only [List.mem_cons, List.mem_map]
        rintro a (rfl | ⟨_, _, rfl⟩) <;> rfl
      · cases h
  | parts next =>
    rw [hsch] at h
    simp only at h
    split at h
    · cases h
    · cases h; exact ⟨by simp, by simp⟩
    · split at h
      · cases h
      · split at h
        · cases h
        · cases h
          refine ⟨by simp, fun _ => ⟨0, kids_none ?_, .inl rfl⟩⟩
          simp only [List.mem_cons, List.mem_map]
          rintro a (rfl | ⟨_, _, rfl⟩) <;> rfl
  | buffer serialize =>
    rw [hsch] at h
    simp only at h
    split at h
    · cases h
    · cases h; exact ⟨by simp, by simp⟩
    · cases h
      refine ⟨by simp, fun _ => ⟨0, kids_none ?_, .inl rfl⟩⟩
      simp only [List.mem_cons, List.not_mem_nil, or_false]
      rintro a (rfl | rfl) <;> rfl
  | access next buffers =>
    rw [hsch] at h
    simp only at h
    split at h
    · cases h
    · cases h; exact ⟨by simp, by simp⟩
    · split at h
      · cases h
      · split at h
        · cases h
        · split at h
          · cases h
            refine ⟨?_, by simp⟩
            rintro q hq
            cases hq
            refine ⟨rfl, ?_⟩
            simp only [List.mem_map]
            rintro a ⟨p, _, rfl⟩
            exact ⟨_, _, rfl⟩
          · split at h
            · cases h
              refine ⟨by simp, fun _ => ⟨0, kids_none ?_, .inl rfl⟩⟩
              simp only [List.mem_append, List.mem_cons, List.mem_map, List.not_mem_nil,
                or_false]
              rintro a (⟨_, _, rfl⟩ | rfl | rfl) <;> rfl
            · cases h
  | listen next buffers =>
    rw [hsch] at h
    simp only at h
    split at h
    · cases h
    · cases h; exact ⟨by simp, by simp⟩
    · split at h
      · cases h
      · split at h
        · cases h
        · split at h
          · cases h
            refine ⟨?_, by simp⟩
            rintro q hq
            cases hq
            refine ⟨rfl, ?_⟩
            simp only [List.mem_map]
            rintro a ⟨p, _, rfl⟩
            exact ⟨_, _, rfl⟩
          · split at h
            · cases h
              refine ⟨by simp, fun _ => ⟨0, kids_none ?_, .inl rfl⟩⟩
              simp only [List.mem_append, List.mem_cons, List.mem_map, List.not_mem_nil,
                or_false]
              rintro a (⟨_, _, rfl⟩ | rfl) <;> rfl
            · cases h
  | join next buffers clone serialize =>
    rw [hsch] at h
    simp only at h
    split at h
    · cases h
    · split at h
      · cases h; exact ⟨by simp, by simp⟩
      · split at h
        · cases h
        · split at h
          · cases h
          · cases h; exact ⟨by simp, by simp⟩
          · cases h
            refine ⟨by simp, fun _ => ⟨0, kids_none ?_, .inl rfl⟩⟩
            simp only [List.mem_cons, List.not_mem_nil, or_false]
            rintro a rfl
            rfl
  | transform next onError =>
    rw [hsch] at h
    cases h
    refine ⟨by simp, fun _ => ⟨0, kids_none ?_, .inl rfl⟩⟩
    simp only [List.mem_cons, List.not_mem_nil, or_false]
    rintro a (rfl | rfl | rfl) <;> rfl
  | streamOut name =>
    rw [hsch] at h
    cases h
    refine ⟨by simp, fun _ => ⟨0, kids_none ?_, .inl rfl⟩⟩
    simp only [List.mem_cons, List.not_mem_nil, or_false]
    rintro a rfl
    rfl
  | template t connect =>
    rw [hsch] at h
    simp only at h
    split at h
    · cases h
    · rename_i sec hsec
      split at h
      · cases h
        refine ⟨by simp, fun _ => ⟨u.scope, ?_, .inr (.inl ⟨⟨t, connect, rfl⟩, rfl⟩)⟩⟩
        simp only [List.filterMap_append, kidsOf, hsec, Option.map_some, Option.getD_some]
        rw [kids_child (fun e : Name × Schema => (⟨e.1, childNs u.ns u.id, e.2, u.scope⟩ : UOp))]
        rw [kids_none (l := sec.inputs.flatMap _), kids_none (l := sec.buffers.flatMap _),
          kids_none (l := sec.outputs.map _)]
        · simp [childNs, Act.kid?]
        · simp only [List.mem_map]
          rintro a ⟨_, _, rfl⟩
          rfl
        · simp only [List.mem_flatMap, redirectBuffer, List.mem_cons, List.not_mem_nil, or_false]
          rintro a ⟨_, _, rfl | rfl⟩ <;> rfl
        · simp only [List.mem_flatMap, redirectInput, List.mem_cons, List.not_mem_nil, or_false]
          rintro a ⟨_, _, rfl⟩
          rfl
      · cases h
  | scope start next streams ops =>
    rw [hsch] at h
    cases h
    refine ⟨by simp, fun _ => ⟨c.fresh, ?_, .inr (.inr ⟨⟨_, _, _, _, rfl⟩, ?_⟩)⟩⟩
    rotate_left
    · refine ⟨intoChildRef u.ns u.id (Ref.ofNext start),
        some (intoRef u.ns (.terminate [u.id])), List.mem_append_right _ ?_⟩
      simp [intoRef, Ref.ofNext, Ref.inNs]
    simp only [List.cons_append, List.filterMap_append, List.filterMap_cons, Act.kid?, kidsOf]
    rw [kids_child (fun e : Name × Schema => (⟨e.1, childNs u.ns u.id, e.2, c.fresh⟩ : UOp))]
    rw [kids_none (l := streams.map _)]
    · simp [childNs]
    · simp only [List.mem_map]
      rintro a ⟨_, _, rfl⟩
      rfl

/-! ### What a list of calls does -/

/-- The calls `as` lead from `s` to `s'`. -/
structure Did (s : St) (as : List Act) (s' : St) : Prop where
  keeps : Keeps s.c.targets s'.c.targets
  fresh : s.c.fresh ≤ s'.c.fresh
  outs : ∃ ms, s'.made = s.made ++ ms ∧ ms.map born = as.filterMap Act.out? ∧
    (flat s'.c.outs).Perm (flat s.c.outs ++ ms) ∧
    ∀ e, e ∈ ms → s.c.fresh ≤ e.1.id ∧ e.1.id < s'.c.fresh
  lost : s'.lost = s.lost
  targets : ∀ r conn scope, .target r conn scope ∈ as →
    ∃ t, s'.c.targets.lookup r = some t ∧ t.scope = scope ∧ t.conn.core = conn.core
  source : ∀ r t, s'.c.targets.lookup r = some t → (s.c.targets.lookup r = some t) ∨
    .target r t.conn t.scope ∈ as
  kids : s'.children = s.children ++ as.filterMap Act.kid?
  done : s'.done = s.done

theorem act_did {s s' : St} {a : Act} (h : act s a = .ok s') : Did s [a] s' := by
  cases a with
  | out to ty scope =>
    cases h
    refine ⟨.refl _, Nat.le_succ _, ⟨[(⟨s.c.fresh, ty, scope⟩, to)], rfl, by simp [born, Act.out?],
      ?_, ?_⟩, rfl, by simp, fun _ _ hl => .inl hl, by simp [Act.kid?], rfl⟩
    · refine (flat_pushOut _ _ _).trans ?_
      exact (List.perm_append_comm (l₁ := [_]))
    · intro e he
      rw [List.mem_singleton.1 he]
      exact ⟨Nat.le_refl _, Nat.lt_succ_self _⟩
  | target r conn scope =>
    simp only [act] at h
    split at h
    · cases h
    · rename_i hn
      cases h
      refine ⟨.append _ _, Nat.le_refl _, ⟨[], by simp [Act.out?]⟩, rfl, ?_, ?_,
        by simp [Act.kid?], rfl⟩
      · intro r' conn' scope' hm
        simp only [List.mem_singleton, Act.target.injEq] at hm
        obtain ⟨rfl, rfl, rfl⟩ := hm
        refine ⟨⟨conn', scope'⟩, ?_, rfl, rfl⟩
        rw [lookup_append, hn]
        simp
      · intro r' t hl
        rw [lookup_append] at hl
        cases hs : s.c.targets.lookup r' with
        | some t' =>
          rw [hs] at hl
          exact .inl hl
        | none =>
          rw [hs] at hl
          have hm := mem_of_lookup (by simpa using hl)
          simp only [List.mem_singleton, Prod.mk.injEq] at hm
          obtain ⟨rfl, rfl⟩ := hm
          exact .inr (List.mem_singleton.2 rfl)
  | buffer r b =>
    simp only [act] at h
    split at h
    · cases h
    · cases h
      exact ⟨.refl _, Nat.le_refl _, ⟨[], by simp [Act.out?]⟩, rfl, by simp,
        fun _ _ hl => .inl hl, by simp [Act.kid?], rfl⟩
  | hint r b =>
    cases h
    exact ⟨.refl _, Nat.le_refl _, ⟨[], by simp [Act.out?]⟩, rfl, by simp,
      fun _ _ hl => .inl hl, by simp [Act.kid?], rfl⟩
  | child u =>
    cases h
    exact ⟨.refl _, Nat.le_refl _, ⟨[], by simp [Act.out?]⟩, rfl, by simp,
      fun _ _ hl => .inl hl, by simp [Act.kid?], rfl⟩
  | newScope =>
    cases h
    exact ⟨.refl _, Nat.le_succ _, ⟨[], by simp [Act.out?]⟩, rfl, by simp,
      fun _ _ hl => .inl hl, by simp [Act.kid?], rfl⟩

theorem Did.append {s s1 s2 : St} {as bs : List Act} (h : Did s as s1) (g : Did s1 bs s2) :
    Did s (as ++ bs) s2 where
  keeps := h.keeps.trans g.keeps
  fresh := Nat.le_trans h.fresh g.fresh
  outs := by
    obtain ⟨ms, h1, h2, h3, h4⟩ := h.outs
    obtain ⟨ns, g1, g2, g3, g4⟩ := g.outs
    refine ⟨ms ++ ns, ?_, ?_, ?_, ?_⟩
    · rw [g1, h1, List.append_assoc]
    · rw [List.map_append, h2, g2, List.filterMap_append]
    · rw [← List.append_assoc]
      exact g3.trans (h3.append_right _)
    · intro e he
      rcases List.mem_append.1 he with he | he
      · exact ⟨(h4 e he).1, Nat.lt_of_lt_of_le (h4 e he).2 g.fresh⟩
      · exact ⟨Nat.le_trans h.fresh (g4 e he).1, (g4 e he).2⟩
  lost := g.lost.trans h.lost
  targets r conn scope hm := by
    rcases List.mem_append.1 hm with hm | hm
    · obtain ⟨t, h1, h2, h3⟩ := h.targets r conn scope hm
      obtain ⟨t', g1, g2, g3⟩ := g.keeps r t h1
      exact ⟨t', g1, g2.trans h2, g3.trans h3⟩
    · exact g.targets r conn scope hm
  source r t hl := by
    rcases g.source r t hl with h1 | hm
    · rcases h.source r t h1 with h2 | hm
      · exact .inl h2
      · exact .inr (List.mem_append_left _ hm)
    · exact .inr (List.mem_append_right _ hm)
  kids := by rw [g.kids, h.kids, List.filterMap_append, List.append_assoc]
  done := g.done.trans h.done

theorem acts_did {as : List Act} : ∀ {s s' : St}, acts s as = .ok s' → Did s as s' := by
  induction as with
  | nil =>
    intro s s' h
    cases h
    exact ⟨.refl _, Nat.le_refl _, ⟨[], by simp⟩, rfl, by simp, fun _ _ hl => .inl hl, by simp,
      rfl⟩
  | cons a rest ih =>
    intro s s' h
    simp only [acts] at h
    split at h
    · cases h
    · rename_i s1 h1
      exact (act_did h1).append (ih h)

/-- The output `e.1` of an operation waits for the target `e.2` named for it, or this target
passes it on; only then can it be lost. -/
structure Stay (c : Cons) (gone : List (Out × Ref)) (e : Out × Ref) : Prop where
  lt : e.1.id < c.fresh
  pend : ∀ r, (e.1, r) ∈ flat c.outs → r = e.2 ∨ ∃ r', PassesTo c.targets e.2 r'
  lost : ∀ r, (e.1, r) ∈ gone → ∃ r', PassesTo c.targets e.2 r'

theorem Did.stay {s s' : St} {as : List Act} (h : Did s as s') {e : Out × Ref} (he : Stay s.c s.lost e) :
    Stay s'.c s'.lost e := by
  obtain ⟨ms, h1, h2, h3, h4⟩ := h.outs
  refine ⟨Nat.lt_of_lt_of_le he.lt h.fresh, ?_, ?_⟩
  · intro r hr
    rcases List.mem_append.1 (h3.mem_iff.1 hr) with hr | hr
    · rcases he.pend r hr with h5 | ⟨r', h5⟩
      · exact .inl h5
      · exact .inr ⟨r', h.keeps.passes h5⟩
    · exact absurd he.lt (Nat.not_lt.2 (h4 _ hr).1)
  · intro r hr
    rw [h.lost] at hr
    obtain ⟨r', h5⟩ := he.lost r hr
    exact ⟨r', h.keeps.passes h5⟩

theorem St.Ok.ids {s : St} (h : s.Ok) :
    (∀ e, e ∈ flat s.c.outs → e.1.id < s.c.fresh) ∧ (∀ e, e ∈ s.lost → e.1.id < s.c.fresh) := by
  have key : ∀ o : Out, o ∈ s.made.map (·.1) → o.id < s.c.fresh := by
    intro o ho
    obtain ⟨e, he, rfl⟩ := List.mem_map.1 ho
    exact h.1.lt e he
  refine ⟨fun e he => key _ (h.1.perm.mem_iff.2 ?_), fun e he => key _ (h.1.perm.mem_iff.2 ?_)⟩
  · exact List.mem_append_left _ (List.mem_map.2 ⟨e, he, rfl⟩)
  · refine List.mem_append_right _ (List.mem_append_right _ (List.mem_append_right _ ?_))
    exact List.mem_map.2 ⟨e, he, rfl⟩

/-- The outputs that the calls made are where they were put. -/
theorem Did.stayed {s s' : St} {as : List Act} (h : Did s as s') (hs : s.Ok) (hs' : s'.Ok) :
    ∃ ms : List (Out × Ref), ms.Sublist s'.made ∧ ms.map born = as.filterMap Act.out? ∧
      ∀ e, e ∈ ms → Stay s'.c s'.lost e := by
  obtain ⟨ms, h1, h2, h3, h4⟩ := h.outs
  refine ⟨ms, ?_, h2, fun e he => ⟨(h4 e he).2, ?_, ?_⟩⟩
  · rw [h1]
    exact List.sublist_append_right _ _
  · intro r hr
    rcases List.mem_append.1 (h3.mem_iff.1 hr) with hr | hr
    · exact absurd (hs.ids.1 _ hr) (Nat.not_lt.2 (h4 e he).1)
    · -- the ids of the made outputs are distinct
      have hn : (ms.map (·.1.id)).Nodup := by
        have := hs'.1.nodup
        rw [h1, List.map_append, List.nodup_append] at this
        exact this.2.1
      left
      have key : ∀ (l : List (Out × Ref)), (l.map (·.1.id)).Nodup → ∀ a b, a ∈ l → b ∈ l →
          a.1.id = b.1.id → a = b := by
        intro l
        induction l with
        | nil => intro _ a b ha; cases ha
        | cons x rest ih =>
          intro hnd a b ha hb hab
          rw [List.map_cons, List.nodup_cons] at hnd
          rcases List.mem_cons.1 ha with h1 | h1 <;> rcases List.mem_cons.1 hb with h2 | h2
          · rw [h1, h2]
          · rw [h1] at hab
            exact absurd (List.mem_map.2 ⟨b, h2, hab.symm⟩) hnd.1
          · rw [h2] at hab
            exact absurd (List.mem_map.2 ⟨a, h1, hab⟩) hnd.1
          · exact ih hnd.2 a b h1 h2 hab
      have := key ms hn (e.1, r) e hr he rfl
      rw [← this]
  · intro r hr
    rw [h.lost] at hr
    exact absurd (hs.ids.2 _ hr) (Nat.not_lt.2 (h4 e he).1)

/-! ### The connections change nothing else -/

/-- A pass keeps the outputs made, the targets, the operations. -/
structure Same (s s' : St) : Prop where
  made : ∃ ms, s'.made = s.made ++ ms
  stay : ∀ e, Stay s.c s.lost e → Stay s'.c s'.lost e
  keeps : Keeps s.c.targets s'.c.targets
  source : ∀ r t, s'.c.targets.lookup r = some t → ∃ t', s.c.targets.lookup r = some t'
  done : s'.done = s.done
  children : s'.children = s.children
  fresh : s.c.fresh ≤ s'.c.fresh

/-- The state of a pass that began with the outputs `outs` and the next entity `start`. -/
structure Passing (outs : List (Ref × List Out)) (start : Nat) (p : Pass) : Prop where
  fresh : start ≤ p.fresh
  next : ∀ e, e ∈ flat p.next → start ≤ e.1.id ∨
    ∃ r, (e.1, r) ∈ flat outs ∧ PassesTo p.targets r e.2
  deferred : ∀ e, e ∈ flat p.deferred → e ∈ flat outs

/-- The made outputs and the keys of the targets, during a pass. -/
structure Grows (p p' : Pass) : Prop where
  made : ∃ ms, p'.made = p.made ++ ms
  source : ∀ r t, p'.targets.lookup r = some t → ∃ t', p.targets.lookup r = some t'

theorem Grows.refl (p : Pass) : Grows p p := ⟨⟨[], by simp⟩, fun _ t h => ⟨t, h⟩⟩

theorem Grows.trans {p q r : Pass} (h : Grows p q) (g : Grows q r) : Grows p r := by
  obtain ⟨ms, h1⟩ := h.made
  obtain ⟨ns, g1⟩ := g.made
  refine ⟨⟨ms ++ ns, by rw [g1, h1, List.append_assoc]⟩, fun k t hk => ?_⟩
  obtain ⟨t', h2⟩ := g.source k t hk
  exact h.source k t' h2

section
variable {outs : List (Ref × List Out)} {start : Nat}

theorem addExtra_grows (extra : List (Ref × Ty × Nat)) : ∀ (p : Pass),
    Grows p (addExtra p extra) ∧ (addExtra p extra).targets = p.targets ∧
    (Passing outs start p → Passing outs start (addExtra p extra)) := by
  induction extra with
  | nil => intro p; exact ⟨.refl _, rfl, fun h => h⟩
  | cons x rest ih =>
    obtain ⟨to, ty, scope⟩ := x
    intro p
    simp only [addExtra]
    obtain ⟨h1, h2, h3⟩ := ih { p with
      next := pushOut p.next to ⟨p.fresh, ty, scope⟩
      fresh := p.fresh + 1
      made := p.made ++ [(⟨p.fresh, ty, scope⟩, to)] }
    have h0 : Grows p { p with
      next := pushOut p.next to ⟨p.fresh, ty, scope⟩
      fresh := p.fresh + 1
      made := p.made ++ [(⟨p.fresh, ty, scope⟩, to)] } :=
        ⟨⟨_, rfl⟩, fun _ t h => ⟨t, h⟩⟩
    refine ⟨h0.trans h1, h2, fun h => h3 ?_⟩
    refine ⟨Nat.le_succ_of_le h.fresh, ?_, h.deferred⟩
    intro e he
    rcases List.mem_cons.1 ((flat_pushOut _ _ _).mem_iff.1 he) with rfl | he
    · exact .inl h.fresh
    · exact h.next e he

theorem connectAll_grows {reg : Registry} {onErr r : Ref} {os : List Out} :
    ∀ {t : Target} {p p' : Pass}, connectAll reg onErr r t os p = .ok p' →
      (∃ t0, p.targets.lookup r = some t0 ∧ t0.scope = t.scope ∧ t0.conn.core = t.conn.core) →
      (∀ o, o ∈ os → (o, r) ∈ flat outs) →
      Grows p p' ∧ (Passing outs start p → Passing outs start p') := by
  induction os with
  | nil =>
    intro t p p' h ht _
    cases h
    obtain ⟨t0, ht0, hsc, hcc⟩ := ht
    refine ⟨⟨⟨[], by simp⟩, fun k x hk => ?_⟩, fun hp => ⟨hp.fresh, ?_, hp.deferred⟩⟩
    · simp only [lookup_setTarget] at hk
      split at hk
      · obtain ⟨y, hy, _⟩ := Option.map_eq_some_iff.1 hk
        exact ⟨y, hy⟩
      · exact ⟨x, hk⟩
    · intro e he
      rcases hp.next e he with h1 | ⟨r', h1, h2⟩
      · exact .inl h1
      · exact .inr ⟨r', h1, (Keeps.set ht0 hsc.symm hcc.symm).passes h2⟩
  | cons o rest ih =>
    intro t p p' h ht ho
    obtain ⟨t0, ht0, hsc, hcc⟩ := ht
    simp only [connectAll] at h
    have hor := ho o (by simp)
    have hrest : ∀ o, o ∈ rest → (o, r) ∈ flat outs := fun o h => ho o (by simp [h])
    split at h
    · cases h
    · rename_i conn extra edges hj
      obtain ⟨h3, h4, h5⟩ := addExtra_grows (outs := outs) (start := start) extra
        { p with progress := true, links := p.links ++ [⟨o, r, edges⟩] }
      have hcore : conn.core = t.conn.core := by
        rcases connect_cases hj with ⟨_, _, _, e, hc, _⟩ | ⟨e, _⟩ | ⟨_, _, _, _, e⟩
        · cases e; exact hc
        · cases e
        · cases e
      obtain ⟨h1, h2⟩ := ih h ⟨t0, by rw [h4]; exact ht0, hsc, hcc.trans hcore.symm⟩ hrest
      refine ⟨?_, fun hp => h2 (h5 ⟨hp.fresh, hp.next, hp.deferred⟩)⟩
      have h6 : Grows p { p with progress := true, links := p.links ++ [⟨o, r, edges⟩] } :=
        ⟨⟨[], by simp⟩, fun _ t h => ⟨t, h⟩⟩
      exact (h6.trans h3).trans h1
    · obtain ⟨h1, h2⟩ := ih h ⟨t0, ht0, hsc, hcc⟩ hrest
      refine ⟨⟨h1.made, h1.source⟩, fun hp => h2 ⟨hp.fresh, hp.next, hp.deferred⟩⟩
    · rename_i conn to hj
      have hcore : ∃ seen seen', t.conn = .redirect to seen ∧ conn = .redirect to seen' := by
        rcases connect_cases hj with ⟨_, _, _, e, _⟩ | ⟨e, _⟩ | ⟨to', seen, hc, _, e⟩
        · cases e
        · cases e
        · cases e
          exact ⟨seen, _, hc, rfl⟩
      obtain ⟨seen, seen', hc, rfl⟩ := hcore
      obtain ⟨h1, h2⟩ := ih h ⟨t0, ht0, hsc, by rw [hcc, hc]; rfl⟩ hrest
      refine ⟨⟨h1.made, h1.source⟩, fun hp => h2 ⟨hp.fresh, ?_, hp.deferred⟩⟩
      intro e he
      rcases List.mem_cons.1 ((flat_pushOut _ _ _).mem_iff.1 he) with rfl | he
      · refine .inr ⟨r, hor, ?_⟩
        rw [hc] at hcc
        obtain ⟨seen0, hs0⟩ := core_redirect hcc
        refine ⟨seen0, t0.scope, ?_⟩
        rw [← hs0]
        exact ht0
      · exact hp.next e he

theorem drain_grows {reg : Registry} {onErr : Ref} {busy : Bool} {rem : List (Ref × List Out)} :
    ∀ {p p' : Pass}, drain reg onErr busy rem p = .ok p' →
      (∀ e, e ∈ flat rem → e ∈ flat outs) →
      Grows p p' ∧ (Passing outs start p → Passing outs start p') := by
  induction rem with
  | nil =>
    intro p p' h _
    cases h
    exact ⟨.refl _, fun h => h⟩
  | cons e rest ih =>
    obtain ⟨r, os⟩ := e
    intro p p' h hsub
    have hos : ∀ o, o ∈ os → (o, r) ∈ flat outs := by
      intro o ho
      refine hsub _ ?_
      simp only [flat, List.flatMap_cons, List.mem_append]
      exact .inl (List.mem_map.2 ⟨o, ho, rfl⟩)
    have hrest : ∀ e, e ∈ flat rest → e ∈ flat outs := by
      intro e he
      refine hsub _ ?_
      simp only [flat, List.flatMap_cons, List.mem_append]
      exact .inr he
    simp only [drain] at h
    split at h
    · split at h
      · obtain ⟨h1, h2⟩ := ih h hrest
        refine ⟨⟨h1.made, h1.source⟩, fun hp => h2 ⟨hp.fresh, hp.next, ?_⟩⟩
        intro e he
        simp only [flat, List.flatMap_append, List.mem_append, List.flatMap_cons,
          List.flatMap_nil, List.append_nil] at he
        rcases he with he | he
        · exact hp.deferred e he
        · obtain ⟨o, ho, rfl⟩ := List.mem_map.1 he
          exact hos o ho
      · cases h
    · rename_i t ht
      split at h
      · cases h
      · rename_i p1 h1
        obtain ⟨a1, a2⟩ := connectAll_grows (start := start) h1 ⟨t, ht, rfl, rfl⟩ hos
        obtain ⟨b1, b2⟩ := ih h hrest
        exact ⟨a1.trans b1, fun hp => b2 (a2 hp)⟩

end

theorem flat_filter {q : Ref × List Out → Bool} {m : List (Ref × List Out)} {e : Out × Ref}
    (h : e ∈ flat (m.filter q)) : e ∈ flat m := by
  simp only [flat, List.mem_flatMap, List.mem_filter] at h ⊢
  obtain ⟨x, ⟨h1, _⟩, h2⟩ := h
  exact ⟨x, h1, h2⟩

theorem pass_same {reg : Registry} {onErr : Ref}
    {ord : List (Ref × List Out) → List (Ref × List Out)} (hord : ∀ l, (ord l).Perm l)
    {busy : Bool} {s s' : St} {more q : Bool}
    (h : pass reg onErr ord busy s = .ok (s', more, q)) (hs : s.Ok) : Same s s' := by
  have hk := (pass_ok hord h hs).2
  simp only [pass] at h
  split at h
  · cases h
  · rename_i p hp
    cases h
    have hsub : ∀ e, e ∈ flat (ord s.c.outs) → e ∈ flat s.c.outs := by
      intro e he
      simp only [flat, List.mem_flatMap] at he ⊢
      obtain ⟨x, h1, h2⟩ := he
      exact ⟨x, (hord _).mem_iff.1 h1, h2⟩
    obtain ⟨h1, h2⟩ := drain_grows (start := s.c.fresh) hp hsub
    have h3 := h2 ⟨Nat.le_refl _, by simp [flat], by simp [flat]⟩
    refine ⟨h1.made, ?_, hk, h1.source, rfl, rfl, h3.fresh⟩
    intro e he
    have hnext : ∀ r, (e.1, r) ∈ flat p.next → ∃ r', PassesTo p.targets e.2 r' := by
      intro r hr
      rcases h3.next _ hr with h4 | ⟨r', h4, h5⟩
      · exact absurd he.lt (Nat.not_lt.2 h4)
      · rcases he.pend r' h4 with rfl | ⟨x, hx⟩
        · exact ⟨r, h5⟩
        · exact ⟨x, hk.passes hx⟩
    refine ⟨Nat.lt_of_lt_of_le he.lt h3.fresh, ?_, ?_⟩
    · intro r hr
      simp only [extend, flat, List.flatMap_append, List.mem_append] at hr
      rcases hr with hr | hr
      · exact .inr (hnext r (flat_filter hr))
      · rcases he.pend r (h3.deferred _ hr) with h4 | ⟨x, hx⟩
        · exact .inl h4
        · exact .inr ⟨x, hk.passes hx⟩
    · intro r hr
      rcases List.mem_append.1 hr with hr | hr
      · obtain ⟨x, hx⟩ := he.lost r hr
        exact ⟨x, hk.passes hx⟩
      · exact hnext r (flat_filter hr)

theorem inner_same {reg : Registry} {onErr : Ref} {ord : Order}
    (hord : ∀ n l, (ord n l).Perm l) {busy : Bool} :
    ∀ {n : Nat} {s s' : St} {q q' : Bool} {left : Nat},
      inner reg onErr ord busy n s q = .ok (s', q', left) → s.Ok → Same s s' := by
  intro n
  induction n with
  | zero =>
    intro s s' q q' left h _
    simp only [inner] at h
    split at h <;> cases h
  | succ n ih =>
    intro s s' q q' left h hs
    simp only [inner] at h
    split at h
    · cases h
    · rename_i s1 more p h1
      have a := pass_same (hord _) h1 hs
      split at h
      · have b := ih h (pass_ok (hord _) h1 hs).1
        obtain ⟨ms, hm⟩ := a.made
        obtain ⟨ns, hn⟩ := b.made
        refine ⟨⟨ms ++ ns, by rw [hn, hm, List.append_assoc]⟩, fun e he => b.stay e (a.stay e he),
          a.keeps.trans b.keeps, fun r t ht => ?_, b.done.trans a.done,
          b.children.trans a.children, Nat.le_trans a.fresh b.fresh⟩
        obtain ⟨t', ht'⟩ := b.source r t ht
        exact a.source r t' ht'
      · cases h
        exact a

/-! ### The operations of the diagram -/

/-- The connectors of a scope lead from one scope to another. -/
def Apart (targets : List (Ref × Target)) : Prop :=
  ∀ r t, targets.lookup r = some t → ∀ i o to x mate, t.conn.core = .hop i o to x mate → i ≠ o

/-- What is in a scope of its own. -/
theorem build_fresh {reg : Registry} {ts : List (Name × Template)} {onErr : Ref} {u : UOp}
    {c : Cons} {as : List Act} {st : Status} (h : build reg ts onErr u c = .ok (as, st))
    (hu : u.scope < c.fresh) :
    (∀ r i o to x mate sc, .target r (.hop i o to x mate) sc ∈ as → i ≠ o) ∧
    ∀ v, .child v ∈ as → v.scope = u.scope ∨
      (v.scope = c.fresh ∧ ∃ rest, as = .newScope :: rest) := by
  unfold build at h
  simp only at h
  split at h
  · cases h; simp
  · split at h
    · cases h
    · cases h; simp
    · split at h
      · cases h; simp
      · cases h
  · split at h
    · cases h
    · cases h; simp
    · split at h
      · cases h
      · split at h
        · cases h
        · cases h; simp
  · split at h
    · cases h
    · cases h; simp
    · cases h; simp
  · split at h
    · cases h
    · cases h; simp
    · split at h
      · cases h
      · split at h
        · cases h
        · split at h
          · cases h; simp
          · split at h
            · cases h; simp
            · cases h
  · split at h
    · cases h
    · cases h; simp
    · split at h
      · cases h
      · split at h
        · cases h
        · split at h
          · cases h; simp
          · split at h
            · cases h; simp
            · cases h
  · split at h
    · cases h
    · split at h
      · cases h; simp
      · split at h
        · cases h
        · split at h
          · cases h
          · cases h; simp
          · cases h; simp
  · cases h; simp
  · cases h; simp
  · split at h
    · cases h
    · split at h
      · cases h
        refine ⟨by simp [redirectInput, redirectBuffer, redirectOutput], ?_⟩
        intro v hv
        simp only [List.mem_append, List.mem_flatMap, List.mem_map, redirectInput,
          redirectBuffer, redirectOutput, List.mem_cons, List.not_mem_nil, or_false,
          reduceCtorEq, and_false, exists_false, Act.child.injEq] at hv
        obtain ⟨e, _, rfl⟩ := hv
        exact .inl rfl
      · cases h
  · cases h
    refine ⟨?_, ?_⟩
    · intro r i o to x mate sc hm
      simp only [List.cons_append, List.mem_cons, List.mem_append, List.mem_map,
        List.not_mem_nil, or_false, reduceCtorEq, and_false, exists_false, false_or,
        Act.target.injEq, Conn.hop.injEq] at hm
      rcases hm with ⟨_, _, _, ⟨rfl, rfl, _⟩, _⟩ | ⟨_, ⟨rfl, rfl, _⟩, _⟩ | ⟨_, ⟨rfl, rfl, _⟩, _⟩
      · exact Nat.ne_of_gt hu
      · exact Nat.ne_of_lt hu
      · exact Nat.ne_of_gt hu
    · intro v hv
      simp only [List.cons_append, List.mem_cons, List.mem_append, List.mem_map,
        List.not_mem_nil, or_false, reduceCtorEq, and_false, exists_false, false_or,
        Act.child.injEq] at hv
      obtain ⟨e, _, rfl⟩ := hv
      exact .inr ⟨rfl, _, rfl⟩

theorem acts_newScope {as : List Act} {s s' : St} (h : acts s (.newScope :: as) = .ok s') :
    s.c.fresh < s'.c.fresh := by
  simp only [acts, act] at h
  exact Nat.lt_of_lt_of_le (Nat.lt_succ_self _) (acts_did h).fresh

theorem Apart.keeps {targets targets' : List (Ref × Target)} (h : Apart targets)
    (k : Keeps targets targets')
    (hs : ∀ r t, targets'.lookup r = some t → ∃ t', targets.lookup r = some t') :
    Apart targets' := by
  intro r t hl i o to x mate hc
  obtain ⟨t', h1⟩ := hs r t hl
  obtain ⟨t2, h2, _, h3⟩ := k r t' h1
  rw [hl] at h2
  cases h2
  exact h r t' h1 i o to x mate (h3.symm.trans hc)

/-- The operation `v` is directly inside of the operation `u`, and in the scope that `u` gives
to its children. -/
def ChildOf (targets : List (Ref × Target)) (u v : UOp) : Prop :=
  v.ns = u.ns ++ [u.id] ∧
  (((∃ t c, u.schema = .template t c) ∧ v.scope = u.scope) ∨
    ((∃ a b c d, u.schema = .scope a b c d) ∧
      ∃ t to mate, targets.lookup (.named u.ns none u.id) = some t ∧
        t.conn.core = .hop u.scope v.scope to none mate))

theorem ChildOf.keeps {targets targets' : List (Ref × Target)} {u v : UOp}
    (h : ChildOf targets u v) (k : Keeps targets targets') : ChildOf targets' u v := by
  obtain ⟨h1, h2 | ⟨h2, t, to, mate, h3, h4⟩⟩ := h
  · exact ⟨h1, .inl h2⟩
  · obtain ⟨t', k1, _, k3⟩ := k _ _ h3
    exact ⟨h1, .inr ⟨h2, t', to, mate, k1, k3.trans h4⟩⟩

/-- What the builder knows of the operations, when `todo` are not finished. -/
structure Inv (reg : Registry) (ts : List (Name × Template)) (onErr : Ref)
    (ops : List (Name × Schema)) (init : List Act) (todo : List UOp) (s : St) : Prop where
  ok : s.Ok
  children : s.children = []
  firstOuts : ∃ ms : List (Out × Ref), ms.Sublist s.made ∧ ms.map born = init.filterMap Act.out? ∧
    ∀ e, e ∈ ms → Stay s.c s.lost e
  firstTargets : ∀ r conn scope, .target r conn scope ∈ init →
    ∃ t, s.c.targets.lookup r = some t ∧ t.scope = scope ∧ t.conn.core = conn.core
  did : ∀ u, u ∈ s.done → ∃ c as, build reg ts onErr u c = .ok (as, .finished) ∧
    (∃ ms : List (Out × Ref), ms.Sublist s.made ∧ ms.map born = as.filterMap Act.out? ∧
      ∀ e, e ∈ ms → Stay s.c s.lost e) ∧
    (∀ r conn scope, .target r conn scope ∈ as →
      ∃ t, s.c.targets.lookup r = some t ∧ t.scope = scope ∧ t.conn.core = conn.core)
  source : ∀ r t, s.c.targets.lookup r = some t → (∃ conn scope, .target r conn scope ∈ init) ∨
    ∃ u, u ∈ s.done ∧ ∃ c as, build reg ts onErr u c = .ok (as, .finished) ∧
      (∃ conn scope, .target r conn scope ∈ as) ∧ ∀ r conn scope, .target r conn scope ∈ as →
        ∃ t, s.c.targets.lookup r = some t ∧ t.scope = scope ∧ t.conn.core = conn.core
  places : ∀ u, u ∈ s.done ++ todo → At ts ops u.ns u.id u.schema
  roots : ∀ e, e ∈ ops → ∃ u, u ∈ s.done ++ todo ∧ u.ns = [] ∧ u.id = e.1 ∧ u.schema = e.2
  kids : ∀ u, u ∈ s.done → ∀ e, e ∈ kidsOf ts u.schema →
    ∃ v, v ∈ s.done ++ todo ∧ v.ns = u.ns ++ [u.id] ∧ v.id = e.1 ∧ v.schema = e.2
  parent : ∀ v, v ∈ s.done ++ todo →
    (v.ns = [] ∧ v.scope = 0) ∨ ∃ u, u ∈ s.done ∧ ChildOf s.c.targets u v
  nodup : ((s.done ++ todo).map fun u => (u.ns, u.id)).Nodup
  below : ∀ u, u ∈ s.done ++ todo → u.scope < s.c.fresh
  apart : Apart s.c.targets

section
variable {reg : Registry} {ts : List (Name × Template)} {onErr : Ref} {ops : List (Name × Schema)}
  {init : List Act}

theorem Inv.perm {todo todo' : List UOp} {s : St} (h : Inv reg ts onErr ops init todo s)
    (p : todo.Perm todo') : Inv reg ts onErr ops init todo' s := by
  have q : (s.done ++ todo).Perm (s.done ++ todo') := p.append_left _
  refine ⟨h.ok, h.children, h.firstOuts, h.firstTargets, h.did, h.source, ?_, ?_, ?_, ?_, ?_, ?_,
    h.apart⟩
  · intro u hu
    exact h.places u (q.mem_iff.2 hu)
  · intro e he
    obtain ⟨u, h1, h2⟩ := h.roots e he
    exact ⟨u, q.mem_iff.1 h1, h2⟩
  · intro u hu e he
    obtain ⟨v, h1, h2⟩ := h.kids u hu e he
    exact ⟨v, q.mem_iff.1 h1, h2⟩
  · intro v hv
    exact h.parent v (q.mem_iff.2 hv)
  · exact (q.map _).nodup_iff.1 h.nodup
  · intro v hv
    exact h.below v (q.mem_iff.2 hv)

/-- Calls that add no child. -/
theorem Inv.acts {todo : List UOp} {s s' : St} {as : List Act}
    (h : Inv reg ts onErr ops init todo s) (ha : Diagram.acts s as = .ok s')
    (hh : ∀ a, a ∈ as → ∃ r x, a = .hint r x) :
    Inv reg ts onErr ops init todo { s' with children := [] } := by
  obtain ⟨hok, _⟩ := acts_ok ha h.ok
  have d := acts_did ha
  have moved : ∀ {l : List (Ref × Ty × Nat)}, (∃ ms : List (Out × Ref), ms.Sublist s.made ∧
      ms.map born = l ∧ ∀ e, e ∈ ms → Stay s.c s.lost e) →
      ∃ ms : List (Out × Ref), ms.Sublist s'.made ∧ ms.map born = l ∧
        ∀ e, e ∈ ms → Stay s'.c s'.lost e := by
    rintro l ⟨ms, h1, h2, h3⟩
    refine ⟨ms, ?_, h2, fun e he => d.stay (h3 e he)⟩
    obtain ⟨ns, hns, _⟩ := d.outs
    rw [hns]
    exact h1.trans (List.sublist_append_left _ _)
  refine ⟨hok, rfl, ?_, ?_, ?_, ?_, ?_, ?_, ?_, ?_, ?_, ?_, ?_⟩
  · exact moved h.firstOuts
  · intro r conn scope hm
    obtain ⟨t, h1, h2, h3⟩ := h.firstTargets r conn scope hm
    obtain ⟨t', g1, g2, g3⟩ := d.keeps r t h1
    exact ⟨t', g1, g2.trans h2, g3.trans h3⟩
  · intro u hu
    simp only [d.done] at hu
    obtain ⟨c, as', h1, h2, h3⟩ := h.did u hu
    refine ⟨c, as', h1, ?_, ?_⟩
    · exact moved h2
    · intro r conn scope hm
      obtain ⟨t, h1, h2, h3⟩ := h3 r conn scope hm
      obtain ⟨t', g1, g2, g3⟩ := d.keeps r t h1
      exact ⟨t', g1, g2.trans h2, g3.trans h3⟩
  · intro r t hl
    rcases d.source r t hl with h1 | hm
    · rcases h.source r t h1 with h2 | ⟨u, hu, c, as', h2, h3, h4⟩
      · exact .inl h2
      · refine .inr ⟨u, by simp only [d.done]; exact hu, c, as', h2, h3, ?_⟩
        intro r conn scope hm
        obtain ⟨t, h1, h2, h3⟩ := h4 r conn scope hm
        obtain ⟨t', g1, g2, g3⟩ := d.keeps r t h1
        exact ⟨t', g1, g2.trans h2, g3.trans h3⟩
    · obtain ⟨_, _, he⟩ := hh _ hm
      cases he
  · simp only [d.done]; exact h.places
  · simp only [d.done]; exact h.roots
  · simp only [d.done]; exact h.kids
  · intro v hv
    simp only [d.done] at hv ⊢
    rcases h.parent v hv with h1 | ⟨u, h1, h2⟩
    · exact .inl h1
    · exact .inr ⟨u, h1, h2.keeps d.keeps⟩
  · simp only [d.done]; exact h.nodup
  · intro v hv
    simp only [d.done] at hv
    exact Nat.lt_of_lt_of_le (h.below v hv) d.fresh
  · refine h.apart.keeps d.keeps fun r t hl => ?_
    rcases d.source r t hl with h1 | hm
    · exact ⟨t, h1⟩
    · obtain ⟨_, _, he⟩ := hh _ hm
      cases he

/-- The connections. -/
theorem Inv.same {todo : List UOp} {s s' : St} (h : Inv reg ts onErr ops init todo s)
    (hok : s'.Ok) (d : Same s s') : Inv reg ts onErr ops init todo s' := by
  have moved : ∀ {l : List (Ref × Ty × Nat)}, (∃ ms : List (Out × Ref), ms.Sublist s.made ∧
      ms.map born = l ∧ ∀ e, e ∈ ms → Stay s.c s.lost e) →
      ∃ ms : List (Out × Ref), ms.Sublist s'.made ∧ ms.map born = l ∧
        ∀ e, e ∈ ms → Stay s'.c s'.lost e := by
    rintro l ⟨ms, h1, h2, h3⟩
    refine ⟨ms, ?_, h2, fun e he => d.stay e (h3 e he)⟩
    obtain ⟨ns, hns⟩ := d.made
    rw [hns]
    exact h1.trans (List.sublist_append_left _ _)
  refine ⟨hok, d.children.trans h.children, ?_, ?_, ?_, ?_, ?_, ?_, ?_, ?_, ?_, ?_, ?_⟩
  · exact moved h.firstOuts
  · intro r conn scope hm
    obtain ⟨t, h1, h2, h3⟩ := h.firstTargets r conn scope hm
    obtain ⟨t', g1, g2, g3⟩ := d.keeps r t h1
    exact ⟨t', g1, g2.trans h2, g3.trans h3⟩
  · intro u hu
    rw [d.done] at hu
    obtain ⟨c, as', h1, h2, h3⟩ := h.did u hu
    refine ⟨c, as', h1, ?_, ?_⟩
    · exact moved h2
    · intro r conn scope hm
      obtain ⟨t, h1, h2, h3⟩ := h3 r conn scope hm
      obtain ⟨t', g1, g2, g3⟩ := d.keeps r t h1
      exact ⟨t', g1, g2.trans h2, g3.trans h3⟩
  · intro r t hl
    obtain ⟨t', h1⟩ := d.source r t hl
    rcases h.source r t' h1 with h2 | ⟨u, hu, c, as', h2, h3, h4⟩
    · exact .inl h2
    · refine .inr ⟨u, by rw [d.done]; exact hu, c, as', h2, h3, ?_⟩
      intro r conn scope hm
      obtain ⟨t, h1, h2, h3⟩ := h4 r conn scope hm
      obtain ⟨t', g1, g2, g3⟩ := d.keeps r t h1
      exact ⟨t', g1, g2.trans h2, g3.trans h3⟩
  · rw [d.done]; exact h.places
  · rw [d.done]; exact h.roots
  · rw [d.done]; exact h.kids
  · intro v hv
    rw [d.done] at hv ⊢
    rcases h.parent v hv with h1 | ⟨u, h1, h2⟩
    · exact .inl h1
    · exact .inr ⟨u, h1, h2.keeps d.keeps⟩
  · rw [d.done]; exact h.nodup
  · intro v hv
    rw [d.done] at hv
    exact Nat.lt_of_lt_of_le (h.below v hv) d.fresh
  · exact h.apart.keeps d.keeps d.source

/-- An operation of the diagram contains the operations that `kidsOf` gives. -/
theorem At.kid {ns : List Name} {id : Name} {s : Schema} (h : At ts ops ns id s)
    {e : Name × Schema} (he : e ∈ kidsOf ts s) : At ts ops (ns ++ [id]) e.1 e.2 := by
  cases s with
  | template t c =>
    simp only [kidsOf] at he
    cases hl : ts.lookup t with
    | none => rw [hl] at he; cases he
    | some x =>
      rw [hl] at he
      exact .inTemplate h hl he
  | scope start next streams inner => exact .inScope h he
  | _ => cases he

theorem At.distinct (ho : Distinct ops) (ht : ∀ n t, (n, t) ∈ ts → Distinct t.ops)
    {ns : List Name} {id : Name} {s : Schema} (h : At ts ops ns id s) :
    ∀ start next streams inner, s = .scope start next streams inner → Distinct inner := by
  have key : ∀ {l : List (Name × Schema)}, Distinct l → ∀ {id s}, (id, s) ∈ l →
      ∀ start next streams inner, s = .scope start next streams inner → Distinct inner := by
    intro l hl id s hm start next streams inner hs
    subst hs
    cases hl with
    | mk _ g => exact g _ _ _ _ _ hm
  induction h with
  | root hm => exact key ho hm
  | inTemplate _ hl hm _ => exact key (ht _ _ (mem_of_lookup hl)) hm
  | inScope _ hm ih => exact key (ih _ _ _ _ rfl) hm

theorem At.kids_nodup (ho : Distinct ops) (ht : ∀ n t, (n, t) ∈ ts → Distinct t.ops)
    {ns : List Name} {id : Name} {s : Schema} (h : At ts ops ns id s) :
    ((kidsOf ts s).map (·.1)).Nodup := by
  cases s with
  | template t c =>
    simp only [kidsOf]
    cases hl : ts.lookup t with
    | none => simp
    | some x =>
      cases ht _ _ (mem_of_lookup hl) with
      | mk g _ => exact g
  | scope start next streams inner =>
    cases h.distinct ho ht _ _ _ _ rfl with
    | mk g _ => exact g
  | _ => simp [kidsOf]

/-- An operation is finished. -/
theorem Inv.finish (ho : Distinct ops) (ht : ∀ n t, (n, t) ∈ ts → Distinct t.ops)
    {todo : List UOp} {u : UOp} {s s' : St} {as : List Act}
    (h : Inv reg ts onErr ops init (u :: todo) s)
    (hb : build reg ts onErr u s.c = .ok (as, .finished)) (ha : Diagram.acts s as = .ok s') :
    Inv reg ts onErr ops init (todo ++ s'.children)
      { s' with children := [], done := s'.done ++ [u] } := by
  obtain ⟨hok, _⟩ := acts_ok ha h.ok
  have d := acts_did ha
  have moved : ∀ {l : List (Ref × Ty × Nat)}, (∃ ms : List (Out × Ref), ms.Sublist s.made ∧
      ms.map born = l ∧ ∀ e, e ∈ ms → Stay s.c s.lost e) →
      ∃ ms : List (Out × Ref), ms.Sublist s'.made ∧ ms.map born = l ∧
        ∀ e, e ∈ ms → Stay s'.c s'.lost e := by
    rintro l ⟨ms, h1, h2, h3⟩
    refine ⟨ms, ?_, h2, fun e he => d.stay (h3 e he)⟩
    obtain ⟨ns, hns, _⟩ := d.outs
    rw [hns]
    exact h1.trans (List.sublist_append_left _ _)
  have ha' := ha
  have hu : u.scope < s.c.fresh := h.below u (by simp)
  obtain ⟨scope, hkids, hscope⟩ := (build_spec hb).2 rfl
  have hch : s'.children =
      (kidsOf ts u.schema).map fun e => ⟨e.1, u.ns ++ [u.id], e.2, scope⟩ := by
    rw [d.kids, h.children, hkids]
    rfl
  have hat := h.places u (by simp)
  have p : ∀ v, v ∈ s.done ++ u :: todo → v ∈ (s.done ++ [u]) ++ (todo ++ s'.children) := by
    intro v hv
    simp only [List.mem_append, List.mem_cons, List.not_mem_nil, or_false] at hv ⊢
    rcases hv with hv | rfl | hv
    · exact .inl (.inl hv)
    · exact .inl (.inr rfl)
    · exact .inr (.inl hv)
  have q : ∀ v, v ∈ (s.done ++ [u]) ++ (todo ++ s'.children) →
      v ∈ s.done ++ u :: todo ∨ v ∈ s'.children := by
    intro v hv
    simp only [List.mem_append, List.mem_cons, List.not_mem_nil, or_false] at hv ⊢
    rcases hv with (hv | rfl) | hv | hv
    · exact .inl (.inl hv)
    · exact .inl (.inr (.inl rfl))
    · exact .inl (.inr (.inr hv))
    · exact .inr hv
  refine ⟨hok, rfl, ?_, ?_, ?_, ?_, ?_, ?_, ?_, ?_, ?_, ?_, ?_⟩
  · exact moved h.firstOuts
  · intro r conn scope hm
    obtain ⟨t, h1, h2, h3⟩ := h.firstTargets r conn scope hm
    obtain ⟨t', g1, g2, g3⟩ := d.keeps r t h1
    exact ⟨t', g1, g2.trans h2, g3.trans h3⟩
  · intro v hv
    simp only [d.done, List.mem_append, List.mem_singleton] at hv
    rcases hv with hv | rfl
    · obtain ⟨c, as', h1, h2, h3⟩ := h.did v hv
      refine ⟨c, as', h1, ?_, ?_⟩
      · exact moved h2
      · intro r conn scope hm
        obtain ⟨t, h1, h2, h3⟩ := h3 r conn scope hm
        obtain ⟨t', g1, g2, g3⟩ := d.keeps r t h1
        exact ⟨t', g1, g2.trans h2, g3.trans h3⟩
    · exact ⟨s.c, as, hb, d.stayed h.ok hok, d.targets⟩
  · intro r t hl
    rcases d.source r t hl with h1 | hm
    · rcases h.source r t h1 with h2 | ⟨v, hv, c, as', h2, h3, h4⟩
      · exact .inl h2
      · refine .inr ⟨v, ?_, c, as', h2, h3, ?_⟩
        · simp only [d.done]
          exact List.mem_append_left _ hv
        · intro r conn scope hm
          obtain ⟨t, h1, h2, h3⟩ := h4 r conn scope hm
          obtain ⟨t', g1, g2, g3⟩ := d.keeps r t h1
          exact ⟨t', g1, g2.trans h2, g3.trans h3⟩
    · refine .inr ⟨u, ?_, s.c, as, hb, ⟨_, _, hm⟩, d.targets⟩
      simp
  · intro v hv
    simp only [d.done] at hv
    rcases q v hv with hv | hv
    · exact h.places v hv
    · rw [hch] at hv
      obtain ⟨e, he, rfl⟩ := List.mem_map.1 hv
      exact hat.kid he
  · intro e he
    obtain ⟨v, h1, h2⟩ := h.roots e he
    refine ⟨v, ?_, h2⟩
    simp only [d.done]
    exact p v h1
  · intro v hv e he
    simp only [d.done] at hv ⊢
    rcases List.mem_append.1 hv with hv | hv
    · obtain ⟨w, h1, h2⟩ := h.kids v hv e he
      exact ⟨w, p w h1, h2⟩
    · obtain rfl := List.mem_singleton.1 hv
      refine ⟨⟨e.1, v.ns ++ [v.id], e.2, scope⟩, ?_, rfl, rfl, rfl⟩
      refine List.mem_append_right _ (List.mem_append_right _ ?_)
      rw [hch]
      exact List.mem_map.2 ⟨e, he, rfl⟩
  · intro v hv
    simp only [d.done] at hv ⊢
    rcases q v hv with hv | hv
    · rcases h.parent v hv with h1 | ⟨w, h1, h2⟩
      · exact .inl h1
      · exact .inr ⟨w, List.mem_append_left _ h1, h2.keeps d.keeps⟩
    · rw [hch] at hv
      obtain ⟨e, he, rfl⟩ := List.mem_map.1 hv
      refine .inr ⟨u, List.mem_append_right _ (List.mem_singleton.2 rfl), rfl, ?_⟩
      rcases hscope with h1 | h1 | ⟨h1, to, mate, h2⟩
      · rw [h1] at he
        cases he
      · exact .inl h1
      · obtain ⟨t, g1, _, g3⟩ := d.targets _ _ _ h2
        exact .inr ⟨h1, t, to, mate, g1, g3⟩
  · simp only [d.done]
    have e : (s.done ++ [u]) ++ (todo ++ s'.children) = (s.done ++ u :: todo) ++ s'.children := by
      simp
    rw [e, List.map_append, List.nodup_append]
    refine ⟨h.nodup, ?_, ?_⟩
    · rw [hch, List.map_map]
      have h1 := hat.kids_nodup ho ht
      have h2 : ((kidsOf ts u.schema).map fun e => (u.ns ++ [u.id], e.1)) =
          ((kidsOf ts u.schema).map (·.1)).map fun n => (u.ns ++ [u.id], n) := by
        simp
      show ((kidsOf ts u.schema).map fun e => (u.ns ++ [u.id], e.1)).Nodup
      rw [h2]
      refine List.Pairwise.map _ ?_ h1
      intro a b hab hc
      exact hab (Prod.mk.inj hc).2
    · rintro x hx y hy rfl
      rw [hch] at hy
      simp only [List.mem_map] at hx hy
      obtain ⟨v, hv, hv2⟩ := hx
      obtain ⟨w, ⟨e, he, rfl⟩, rfl⟩ := hy
      simp only [Prod.mk.injEq] at hv2
      -- the parent of `v` is `u`, which was not finished before
      rcases h.parent v hv with ⟨h1, _⟩ | ⟨w, hw, h1, _⟩
      · rw [h1] at hv2
        exact absurd hv2.1.symm (by simp)
      · rw [h1] at hv2
        have h3 := List.append_inj' hv2.1 rfl
        have hnd := h.nodup
        rw [List.map_append, List.nodup_append] at hnd
        refine hnd.2.2 (w.ns, w.id) (List.mem_map.2 ⟨w, hw, rfl⟩) (u.ns, u.id)
          (List.mem_map.2 ⟨u, by simp, rfl⟩) ?_
        rw [h3.1, (List.cons.inj h3.2).1]
  · intro v hv
    simp only [d.done] at hv
    rcases q v hv with hv | hv
    · exact Nat.lt_of_lt_of_le (h.below v hv) d.fresh
    · rw [d.kids, h.children, List.nil_append] at hv
      obtain ⟨a, ha, hav⟩ := List.mem_filterMap.1 hv
      cases a <;> simp only [Act.kid?, reduceCtorEq, Option.some.injEq] at hav
      subst hav
      rcases (build_fresh hb hu).2 _ ha with h1 | ⟨h1, rest, rfl⟩
      · rw [h1]
        exact Nat.lt_of_lt_of_le hu d.fresh
      · rw [h1]
        have h2 := acts_newScope ha'
        exact h2
  · intro r t hl i o to x mate hc
    rcases d.source r t hl with h1 | hm
    · exact h.apart r t h1 i o to x mate hc
    · obtain ⟨cn, sc⟩ := t
      cases cn <;> simp only [Conn.core, reduceCtorEq, Conn.hop.injEq] at hc
      obtain ⟨rfl, rfl, _⟩ := hc
      exact (build_fresh hb hu).1 _ _ _ _ _ _ _ hm

theorem buildAll_inv (ho : Distinct ops) (ht : ∀ n t, (n, t) ∈ ts → Distinct t.ops)
    {us : List UOp} : ∀ {s s' : St} {deferred deferred' : List UOp} {p p' : Bool},
      buildAll (build reg ts onErr) us s deferred p = .ok (s', deferred', p') →
      Inv reg ts onErr ops init (us ++ deferred) s →
      Inv reg ts onErr ops init deferred' s' := by
  induction us with
  | nil =>
    intro s s' deferred deferred' p p' h hs
    cases h
    exact hs
  | cons u rest ih =>
    intro s s' deferred deferred' p p' h hs
    simp only [buildAll] at h
    split at h
    · cases h
    · rename_i as status hb
      split at h
      · cases h
      · rename_i s1 h1
        cases status with
        | finished =>
          refine ih h ?_
          have := Inv.finish ho ht (todo := rest ++ deferred) hs hb h1
          rw [List.append_assoc] at this
          exact this
        | deferred b =>
          have hh := ((build_spec hb).1 b rfl).2
          have hi := hs.acts h1 hh
          have hc : s1.children = [] := by
            rw [(acts_did h1).kids, hs.children, kids_none]
            · rfl
            · intro a ha
              obtain ⟨r, x, rfl⟩ := hh a ha
              rfl
          rw [hc, List.append_nil] at h
          refine ih h ?_
          refine hi.perm ?_
          have := (List.perm_middle (a := u) (l₁ := rest ++ deferred) (l₂ := [])).symm
          simpa using this

theorem outer_inv (ho : Distinct ops) (ht : ∀ n t, (n, t) ∈ ts → Distinct t.ops) {ord : Order}
    (hord : ∀ n l, (ord n l).Perm l) :
    ∀ {fuel left : Nat} {us : List UOp} {s s' : St},
      outer (build reg ts onErr) reg onErr ord fuel left us s = .ok s' →
      Inv reg ts onErr ops init us s → Inv reg ts onErr ops init [] s' ∧ hasOutputs s' = false := by
  intro fuel
  induction fuel with
  | zero => intro left us s s' h; cases h
  | succ fuel ih =>
    intro left us s s' h hs
    simp only [outer] at h
    split at h
    · rename_i hd
      cases h
      simp only [Bool.and_eq_true, List.isEmpty_iff, Bool.not_eq_true'] at hd
      rw [hd.1] at hs
      exact ⟨hs, hd.2⟩
    · split at h
      · cases h
      · rename_i s1 us1 p1 h1
        have i1 := buildAll_inv ho ht h1 (by rw [List.append_nil]; exact hs)
        split at h
        · cases h
        · rename_i s2 p2 left2 h2
          have i2 := i1.same (inner_ok hord h2 i1.ok).1 (inner_same hord h2 i1.ok)
          split at h
          · split at h
            · cases h
            · exact ih h i2
          · cases h

end

theorem hasOutputs_false {s : St} (h : hasOutputs s = false) : flat s.c.outs = [] := by
  simp only [hasOutputs, List.any_eq_false, Bool.not_eq_true', Bool.not_eq_false,
    List.isEmpty_iff] at h
  simp only [flat, List.flatMap_eq_nil_iff, List.map_eq_nil_iff]
  exact h

theorem Led.empty : St.empty.Ok := by
  refine ⟨?_, by simp [St.empty]⟩
  refine ⟨?_, ?_, ?_, ?_, ?_, ?_, ?_⟩ <;> simp [St.empty, flat]

/-- What a successful build leaves. -/
theorem create_inv {reg : Registry} {io : Io} {ord : Order} {max : Nat} {d : Diagram} {s : St}
    (hd : d.Keyed) (hord : Drains ord) (h : create reg io ord max d = .ok s) :
    Inv reg d.templates d.errRef d.ops (builtins d.start io) [] s ∧ flat s.c.outs = [] ∧
      finished s.c.targets = true := by
  simp only [create] at h
  split at h
  · cases h
  · split at h
    · cases h
    · rename_i s0 h0
      simp only [run] at h
      split at h
      · cases h
      · rename_i s1 h1
        split at h
        · rename_i hf
          cases h
          have d0 := acts_did h0
          have hc : s0.children = [] := by
            rw [d0.kids, kids_none]
            · rfl
            · intro a ha
              simp only [builtins, List.cons_append, List.mem_cons, List.mem_append,
                List.mem_map, List.not_mem_nil, or_false] at ha
              rcases ha with rfl | rfl | ⟨_, _, rfl⟩ | rfl | rfl <;> rfl
          have i0 : Inv reg d.templates d.errRef d.ops (builtins d.start io)
              (d.ops.map fun e => ⟨e.1, [], e.2, 0⟩) s0 := by
            refine ⟨(acts_ok h0 Led.empty).1, hc,
              d0.stayed Led.empty (acts_ok h0 Led.empty).1, d0.targets, ?_, ?_, ?_, ?_, ?_, ?_, ?_,
              ?_, ?_⟩
            · intro u hu
              rw [d0.done] at hu
              cases hu
            · intro r t hl
              rcases d0.source r t hl with h1 | h1
              · cases h1
              · exact .inl ⟨_, _, h1⟩
            · intro u hu
              rw [d0.done] at hu
              obtain ⟨e, he, rfl⟩ := List.mem_map.1 hu
              exact .root he
            · intro e he
              rw [d0.done]
              exact ⟨⟨e.1, [], e.2, 0⟩, List.mem_map.2 ⟨e, he, rfl⟩, rfl, rfl, rfl⟩
            · intro u hu
              rw [d0.done] at hu
              cases hu
            · intro u hu
              rw [d0.done] at hu
              obtain ⟨e, he, rfl⟩ := List.mem_map.1 hu
              exact .inl ⟨rfl, rfl⟩
            · rw [d0.done]
              have h2 : ((St.empty.done ++ d.ops.map fun e => (⟨e.1, [], e.2, 0⟩ : UOp)).map
                  fun u => (u.ns, u.id)) = (d.ops.map (·.1)).map fun n => (([] : List Name), n) := by
                simp [St.empty]
              rw [h2]
              cases hd.1 with
              | mk g _ =>
                refine List.Pairwise.map _ ?_ g
                intro a b hab hc
                exact hab (Prod.mk.inj hc).2
            · intro u hu
              rw [d0.done] at hu
              obtain ⟨e, he, rfl⟩ := List.mem_map.1 hu
              exact Nat.lt_of_lt_of_le Nat.zero_lt_one d0.fresh
            · intro r t hl i o to x mate hc
              rcases d0.source r t hl with h1 | h1
              · cases h1
              · exfalso
                obtain ⟨cn, sc⟩ := t
                cases cn <;> simp only [Conn.core, reduceCtorEq] at hc
                simp [builtins] at h1
          obtain ⟨i1, i2⟩ := outer_inv hd.1 hd.2 hord h1 i0
          exact ⟨i1, hasOutputs_false i2, hf⟩
        · cases h

/-- Every operation of the diagram was built. -/
theorem Inv.all {reg : Registry} {ts : List (Name × Template)} {onErr : Ref}
    {ops : List (Name × Schema)} {init : List Act} {s : St}
    (h : Inv reg ts onErr ops init [] s) {ns : List Name} {id : Name} {sch : Schema}
    (hat : At ts ops ns id sch) :
    ∃ u, u ∈ s.done ∧ u.ns = ns ∧ u.id = id ∧ u.schema = sch := by
  induction hat with
  | root hm =>
    obtain ⟨u, h1, h2⟩ := h.roots _ hm
    rw [List.append_nil] at h1
    exact ⟨u, h1, h2⟩
  | inTemplate _ hl hm ih =>
    obtain ⟨u, h1, rfl, rfl, h4⟩ := ih
    obtain ⟨v, g1, g2⟩ := h.kids u h1 _ (by rw [h4, kidsOf, hl]; exact hm)
    rw [List.append_nil] at g1
    exact ⟨v, g1, g2⟩
  | inScope _ hm ih =>
    obtain ⟨u, h1, rfl, rfl, h4⟩ := ih
    obtain ⟨v, g1, g2⟩ := h.kids u h1 _ (by rw [h4]; exact hm)
    rw [List.append_nil] at g1
    exact ⟨v, g1, g2⟩

end Verif.Diagram
