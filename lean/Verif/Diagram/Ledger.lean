import Verif.Diagram.TemplateLemmas
import Verif.Diagram.Build

/-
The books of the diagram builder: where every output is.
-/
namespace Verif.Diagram

/-! ### Targets only gain connections -/

/-- A connector, without what it remembers of the outputs connected so far. -/
def Conn.core : Conn → Conn
  | .slot ty scope _ => .slot ty scope []
  | .dispose => .dispose
  | .cancel scope _ => .cancel scope []
  | .redirect to _ => .redirect to []
  | .hop i o to _ mate => .hop i o to none mate

/-- Every target of `a` is still there in `b`. -/
def Keeps (a b : List (Ref × Target)) : Prop :=
  ∀ r t, a.lookup r = some t →
    ∃ t', b.lookup r = some t' ∧ t'.scope = t.scope ∧ t'.conn.core = t.conn.core

theorem Keeps.refl (a : List (Ref × Target)) : Keeps a a := fun _ t h => ⟨t, h, rfl, rfl⟩

theorem Keeps.trans {a b c : List (Ref × Target)} (h : Keeps a b) (g : Keeps b c) :
    Keeps a c := by
  intro r t hr
  obtain ⟨t', h1, h2, h3⟩ := h r t hr
  obtain ⟨t'', g1, g2, g3⟩ := g r t' h1
  exact ⟨t'', g1, g2.trans h2, g3.trans h3⟩

theorem core_redirect {c : Conn} {to : Ref} {seen : List Nat}
    (h : c.core = (Conn.redirect to seen).core) : ∃ seen', c = .redirect to seen' := by
  cases c <;> simp only [Conn.core, reduceCtorEq, Conn.redirect.injEq, and_true] at h
  subst h
  exact ⟨_, rfl⟩

theorem core_dispose {c : Conn} (h : c.core = Conn.dispose.core) : c = .dispose := by
  cases c <;> simp only [Conn.core, reduceCtorEq] at h
  rfl

theorem Keeps.passes {a b : List (Ref × Target)} (h : Keeps a b) {r r' : Ref}
    (g : PassesTo a r r') : PassesTo b r r' := by
  obtain ⟨seen, scope, hl⟩ := g
  obtain ⟨⟨c, sc⟩, h1, _, h3⟩ := h _ _ hl
  obtain ⟨seen', rfl⟩ := core_redirect h3
  exact ⟨seen', sc, h1⟩

theorem Star.mono {α : Type} {R S : α → α → Prop} (h : ∀ {a b}, R a b → S a b) {a b : α}
    (g : Star R a b) : Star S a b := by
  induction g with
  | refl => exact .refl
  | tail _ r ih => exact ih.tail (h r)

theorem lookup_append {α β : Type} [BEq α] [LawfulBEq α] (l m : List (α × β)) (k : α) :
    (l ++ m).lookup k = (l.lookup k).or (m.lookup k) := by
  induction l with
  | nil => simp
  | cons e rest ih =>
    obtain ⟨k', v⟩ := e
    simp only [List.cons_append, List.lookup_cons]
    split
    · rfl
    · exact ih

theorem Keeps.append (a b : List (Ref × Target)) : Keeps a (a ++ b) := by
  intro r t h
  refine ⟨t, ?_, rfl, rfl⟩
  rw [lookup_append, h]
  rfl

theorem lookup_setTarget (targets : List (Ref × Target)) (r : Ref) (t : Target) (k : Ref) :
    (setTarget targets r t).lookup k =
      if k = r then (targets.lookup k).map (fun _ => t) else targets.lookup k := by
  induction targets with
  | nil => simp [setTarget]
  | cons e rest ih =>
    obtain ⟨k', t'⟩ := e
    unfold setTarget at ih ⊢
    simp only [List.map_cons]
    by_cases h1 : k' = r
    · subst h1
      simp only [if_true, List.lookup_cons]
      by_cases h2 : k = k'
      · subst h2; simp
      · rw [if_neg h2] at ih ⊢
        have : (k == k') = false := by simpa using h2
        simp only [this]
        exact ih
    · simp only [if_neg h1, List.lookup_cons]
      by_cases h2 : k = k'
      · subst h2
        simp [h1]
      · have : (k == k') = false := by simpa using h2
        simp only [this]
        exact ih

theorem Keeps.set {targets : List (Ref × Target)} {r : Ref} {t t' : Target}
    (h : targets.lookup r = some t) (hs : t'.scope = t.scope) (hc : t'.conn.core = t.conn.core) :
    Keeps targets (setTarget targets r t') := by
  intro k x hx
  rw [lookup_setTarget]
  by_cases hk : k = r
  · subst hk
    rw [h] at hx
    cases hx
    exact ⟨t', by simp [h], hs, hc⟩
  · exact ⟨x, by simp [hk, hx], rfl, rfl⟩

/-! ### The books -/

/-- The outputs that wait for a target, with that target. -/
def flat (m : List (Ref × List Out)) : List (Out × Ref) :=
  m.flatMap fun e => e.2.map fun o => (o, e.1)

/-- Where the outputs are. -/
structure Led (targets : List (Ref × Target)) (fresh : Nat) (pend made : List (Out × Ref))
    (links : List Link) (disposed lost : List (Out × Ref)) : Prop where
  nodup : (made.map (·.1.id)).Nodup
  lt : ∀ e, e ∈ made → e.1.id < fresh
  perm : (made.map (·.1)).Perm
    (pend.map (·.1) ++ (links.map (·.out) ++ (disposed.map (·.1) ++ lost.map (·.1))))
  pendFrom : ∀ e, e ∈ pend → ∃ r, (e.1, r) ∈ made ∧ Star (PassesTo targets) r e.2
  linkFrom : ∀ l, l ∈ links → ∃ r, (l.out, r) ∈ made ∧ Star (PassesTo targets) r l.into ∧
    ∃ t, targets.lookup l.into = some t ∧ t.conn ≠ .dispose ∧ ∀ to seen, t.conn ≠ .redirect to seen
  dispFrom : ∀ e, e ∈ disposed → ∃ r, (e.1, r) ∈ made ∧ Star (PassesTo targets) r e.2 ∧
    ∃ scope, targets.lookup e.2 = some ⟨.dispose, scope⟩
  lostFrom : ∀ e, e ∈ lost → ∃ r, (e.1, r) ∈ made ∧ Star (PassesTo targets) r e.2 ∧
    ((targets.lookup e.2).isSome ∨ ∃ o, (o, e.2) ∈ pend)

variable {targets targets' : List (Ref × Target)} {fresh : Nat}
  {pend pend' made disposed lost : List (Out × Ref)} {links : List Link}

theorem Led.keeps (h : Led targets fresh pend made links disposed lost)
    (k : Keeps targets targets') : Led targets' fresh pend made links disposed lost where
  nodup := h.nodup
  lt := h.lt
  perm := h.perm
  pendFrom e he := by
    obtain ⟨r, h1, h2⟩ := h.pendFrom e he
    exact ⟨r, h1, h2.mono k.passes⟩
  linkFrom l hl := by
    obtain ⟨r, h1, h2, t, h3, h4, h5⟩ := h.linkFrom l hl
    obtain ⟨t', k1, _, k3⟩ := k _ _ h3
    refine ⟨r, h1, h2.mono k.passes, t', k1, ?_, ?_⟩
    · intro hd
      rw [hd] at k3
      exact h4 (core_dispose k3.symm)
    · intro to seen hd
      rw [hd] at k3
      obtain ⟨s, hs⟩ := core_redirect k3.symm
      exact h5 _ _ hs
  dispFrom e he := by
    obtain ⟨r, h1, h2, scope, h3⟩ := h.dispFrom e he
    obtain ⟨⟨c, sc⟩, k1, _, k3⟩ := k _ _ h3
    have hc : c = .dispose := core_dispose k3
    exact ⟨r, h1, h2.mono k.passes, sc, by rw [k1, hc]⟩
  lostFrom e he := by
    obtain ⟨r, h1, h2, h3⟩ := h.lostFrom e he
    refine ⟨r, h1, h2.mono k.passes, h3.imp_left ?_⟩
    intro hs
    obtain ⟨t, ht⟩ := Option.isSome_iff_exists.1 hs
    obtain ⟨t', k1, _⟩ := k _ _ ht
    rw [k1]
    rfl

theorem Led.permute (h : Led targets fresh pend made links disposed lost)
    (p : pend.Perm pend') : Led targets fresh pend' made links disposed lost where
  nodup := h.nodup
  lt := h.lt
  perm := h.perm.trans ((p.map _).append_right _)
  pendFrom e he := h.pendFrom e (p.mem_iff.2 he)
  linkFrom := h.linkFrom
  dispFrom := h.dispFrom
  lostFrom e he := by
    obtain ⟨r, h1, h2, h3⟩ := h.lostFrom e he
    exact ⟨r, h1, h2, h3.imp_right fun ⟨o, ho⟩ => ⟨o, p.mem_iff.1 ho⟩⟩

/-- A new output. -/
theorem Led.add (h : Led targets fresh pend made links disposed lost) (to : Ref) (ty : Ty)
    (scope : Nat) : Led targets (fresh + 1) ((⟨fresh, ty, scope⟩, to) :: pend)
      (made ++ [(⟨fresh, ty, scope⟩, to)]) links disposed lost where
  nodup := by
    rw [List.map_append, List.nodup_append]
    refine ⟨h.nodup, by simp, ?_⟩
    intro a ha b hb
    simp only [List.map_cons, List.map_nil, List.mem_singleton] at hb
    subst hb
    obtain ⟨e, he, rfl⟩ := List.mem_map.1 ha
    exact Nat.ne_of_lt (h.lt e he)
  lt e he := by
    rcases List.mem_append.1 he with he | he
    · exact Nat.lt_succ_of_lt (h.lt e he)
    · rw [List.mem_singleton.1 he]
      exact Nat.lt_succ_self _
  perm := by
    rw [List.map_append]
    refine List.perm_append_comm.trans ?_
    exact h.perm.cons _
  pendFrom e he := by
    rcases List.mem_cons.1 he with rfl | he
    · exact ⟨to, List.mem_append_right _ (List.mem_singleton.2 rfl), .refl⟩
    · obtain ⟨r, h1, h2⟩ := h.pendFrom e he
      exact ⟨r, List.mem_append_left _ h1, h2⟩
  linkFrom l hl := by
    obtain ⟨r, h1, h2⟩ := h.linkFrom l hl
    exact ⟨r, List.mem_append_left _ h1, h2⟩
  dispFrom e he := by
    obtain ⟨r, h1, h2⟩ := h.dispFrom e he
    exact ⟨r, List.mem_append_left _ h1, h2⟩
  lostFrom e he := by
    obtain ⟨r, h1, h2, h3⟩ := h.lostFrom e he
    exact ⟨r, List.mem_append_left _ h1, h2,
      h3.imp_right fun ⟨o, ho⟩ => ⟨o, List.mem_cons_of_mem _ ho⟩⟩

/-- A new entity. -/
theorem Led.bump (h : Led targets fresh pend made links disposed lost) :
    Led targets (fresh + 1) pend made links disposed lost :=
  ⟨h.nodup, fun e he => Nat.lt_succ_of_lt (h.lt e he), h.perm, h.pendFrom, h.linkFrom,
    h.dispFrom, h.lostFrom⟩

/-- What may be forgotten of the lost outputs when one output leaves `r`, which has a target. -/
theorem Led.lostAfter {o : Out} {r : Ref} {t : Target}
    (h : Led targets fresh ((o, r) :: pend) made links disposed lost)
    (hl : targets.lookup r = some t) :
    ∀ e, e ∈ lost → ∃ r, (e.1, r) ∈ made ∧ Star (PassesTo targets) r e.2 ∧
      ((targets.lookup e.2).isSome ∨ ∃ o, (o, e.2) ∈ pend) := by
  intro e he
  obtain ⟨r', h1, h2, h3⟩ := h.lostFrom e he
  refine ⟨r', h1, h2, ?_⟩
  rcases h3 with h3 | ⟨o', ho'⟩
  · exact .inl h3
  · rcases List.mem_cons.1 ho' with h' | h'
    · cases h'
      exact .inl (by rw [hl]; rfl)
    · exact .inr ⟨o', h'⟩

theorem perm_swap3 {α : Type} (a : α) (l m n : List α) :
    (a :: l ++ (m ++ n)).Perm (l ++ (m ++ [a] ++ n)) := by
  have h := (List.perm_middle (a := a) (l₁ := l ++ m) (l₂ := n)).symm
  simpa using h

/-- An output is connected. -/
theorem Led.link {o : Out} {r : Ref} {t : Target}
    (h : Led targets fresh ((o, r) :: pend) made links disposed lost)
    (hl : targets.lookup r = some t) (hd : t.conn ≠ .dispose)
    (hr : ∀ to seen, t.conn ≠ .redirect to seen) (edges : List (Nat × Nat)) :
    Led targets fresh pend made (links ++ [⟨o, r, edges⟩]) disposed lost where
  nodup := h.nodup
  lt := h.lt
  perm := by
    refine h.perm.trans ?_
    rw [List.map_append]
    exact perm_swap3 _ _ _ _
  pendFrom e he := h.pendFrom e (List.mem_cons_of_mem _ he)
  linkFrom l hll := by
    rcases List.mem_append.1 hll with hll | hll
    · exact h.linkFrom l hll
    · rw [List.mem_singleton.1 hll]
      obtain ⟨r', h1, h2⟩ := h.pendFrom _ List.mem_cons_self
      exact ⟨r', h1, h2, t, hl, hd, hr⟩
  dispFrom := h.dispFrom
  lostFrom := h.lostAfter hl

/-- An output is disposed of. -/
theorem Led.dispose {o : Out} {r : Ref} {t : Target}
    (h : Led targets fresh ((o, r) :: pend) made links disposed lost)
    (hl : targets.lookup r = some t) (hd : t.conn = .dispose) :
    Led targets fresh pend made links (disposed ++ [(o, r)]) lost where
  nodup := h.nodup
  lt := h.lt
  perm := by
    refine h.perm.trans ?_
    rw [List.map_append]
    have := perm_swap3 o (pend.map (·.1) ++ links.map (·.out)) (disposed.map (·.1))
      (lost.map (·.1))
    simpa using this
  pendFrom e he := h.pendFrom e (List.mem_cons_of_mem _ he)
  linkFrom := h.linkFrom
  dispFrom e he := by
    rcases List.mem_append.1 he with he | he
    · exact h.dispFrom e he
    · rw [List.mem_singleton.1 he]
      obtain ⟨r', h1, h2⟩ := h.pendFrom _ List.mem_cons_self
      refine ⟨r', h1, h2, t.scope, ?_⟩
      rw [hl, ← hd]
  lostFrom := h.lostAfter hl

/-- An output is passed on. -/
theorem Led.redirect {o : Out} {r to : Ref} {t : Target} {seen : List Nat}
    (h : Led targets fresh ((o, r) :: pend) made links disposed lost)
    (hl : targets.lookup r = some t) (hd : t.conn = .redirect to seen) :
    Led targets fresh ((o, to) :: pend) made links disposed lost where
  nodup := h.nodup
  lt := h.lt
  perm := h.perm
  pendFrom e he := by
    rcases List.mem_cons.1 he with rfl | he
    · obtain ⟨r', h1, h2⟩ := h.pendFrom _ List.mem_cons_self
      refine ⟨r', h1, h2.tail ⟨seen, t.scope, ?_⟩⟩
      rw [hl, ← hd]
    · exact h.pendFrom e (List.mem_cons_of_mem _ he)
  linkFrom := h.linkFrom
  dispFrom := h.dispFrom
  lostFrom e he := by
    obtain ⟨r', h1, h2, h3⟩ := h.lostAfter hl e he
    exact ⟨r', h1, h2, h3.imp_right fun ⟨o', ho'⟩ => ⟨o', List.mem_cons_of_mem _ ho'⟩⟩

/-- Outputs are overwritten by others for the same target. -/
theorem Led.lose {gone : List (Out × Ref)}
    (h : Led targets fresh (gone ++ pend) made links disposed lost)
    (hg : ∀ e, e ∈ gone → ∃ o, (o, e.2) ∈ pend) :
    Led targets fresh pend made links disposed (lost ++ gone) where
  nodup := h.nodup
  lt := h.lt
  perm := by
    refine h.perm.trans ?_
    simp only [List.map_append]
    have := List.perm_append_comm (l₁ := gone.map (·.1))
      (l₂ := pend.map (·.1) ++ (links.map (·.out) ++ (disposed.map (·.1) ++ lost.map (·.1))))
    simpa using this
  pendFrom e he := h.pendFrom e (List.mem_append_right _ he)
  linkFrom := h.linkFrom
  dispFrom := h.dispFrom
  lostFrom e he := by
    rcases List.mem_append.1 he with he | he
    · obtain ⟨r', h1, h2, h3⟩ := h.lostFrom e he
      refine ⟨r', h1, h2, ?_⟩
      rcases h3 with h3 | ⟨o, ho⟩
      · exact .inl h3
      · rcases List.mem_append.1 ho with ho | ho
        · exact .inr (hg (o, e.2) ho)
        · exact .inr ⟨o, ho⟩
    · obtain ⟨r', h1, h2⟩ := h.pendFrom e (List.mem_append_left _ he)
      exact ⟨r', h1, h2, .inr (hg e he)⟩

/-! ### Maps of outputs -/

theorem flat_append (a b : List (Ref × List Out)) : flat (a ++ b) = flat a ++ flat b := by
  simp [flat]

theorem flat_pushOut (m : List (Ref × List Out)) (r : Ref) (o : Out) :
    (flat (pushOut m r o)).Perm ((o, r) :: flat m) := by
  induction m with
  | nil => simp [pushOut, flat]
  | cons e rest ih =>
    obtain ⟨k, os⟩ := e
    simp only [pushOut]
    split
    · rename_i hk
      subst hk
      simp [flat]
    · have h1 : (flat ((k, os) :: pushOut rest r o)).Perm
          ((os.map fun o => (o, k)) ++ ((o, r) :: flat rest)) := by
        simpa [flat] using ih.append_left (os.map fun o => (o, k))
      refine h1.trans ?_
      simp [flat]

theorem flat_perm {a b : List (Ref × List Out)} (h : a.Perm b) : (flat a).Perm (flat b) :=
  h.flatMap_right _

theorem pushOut_ne {m : List (Ref × List Out)} {r : Ref} {o : Out}
    (h : ∀ e, e ∈ m → e.2 ≠ []) : ∀ e, e ∈ pushOut m r o → e.2 ≠ [] := by
  induction m with
  | nil =>
    intro e he
    simp only [pushOut, List.mem_singleton] at he
    subst he
    simp
  | cons x rest ih =>
    obtain ⟨k, os⟩ := x
    intro e he
    simp only [pushOut] at he
    split at he
    · rcases List.mem_cons.1 he with rfl | he
      · simp
      · exact h e (List.mem_cons_of_mem _ he)
    · rcases List.mem_cons.1 he with rfl | he
      · exact h _ List.mem_cons_self
      · exact ih (fun e he => h e (List.mem_cons_of_mem _ he)) e he

/-! ### The operations are built -/

/-- The books of a state. -/
def St.Ok (s : St) : Prop :=
  Led s.c.targets s.c.fresh (flat s.c.outs) s.made s.links s.disposed s.lost ∧
  ∀ e, e ∈ s.c.outs → e.2 ≠ []

theorem act_ok {s s' : St} {a : Act} (h : act s a = .ok s') (hs : s.Ok) :
    s'.Ok ∧ Keeps s.c.targets s'.c.targets := by
  obtain ⟨led, ne⟩ := hs
  cases a with
  | out to ty scope =>
    cases h
    refine ⟨⟨?_, pushOut_ne ne⟩, .refl _⟩
    exact (led.add to ty scope).permute (flat_pushOut _ _ _).symm
  | target r conn scope =>
    simp only [act] at h
    split at h
    · cases h
    · cases h
      exact ⟨⟨led.keeps (.append _ _), ne⟩, .append _ _⟩
  | buffer r b =>
    simp only [act] at h
    split at h
    · cases h
    · cases h
      exact ⟨⟨led, ne⟩, .refl _⟩
  | hint r b =>
    cases h
    exact ⟨⟨led, ne⟩, .refl _⟩
  | child u =>
    cases h
    exact ⟨⟨led, ne⟩, .refl _⟩
  | newScope =>
    cases h
    exact ⟨⟨led.bump, ne⟩, .refl _⟩

theorem acts_ok {as : List Act} : ∀ {s s' : St}, acts s as = .ok s' → s.Ok →
    s'.Ok ∧ Keeps s.c.targets s'.c.targets := by
  induction as with
  | nil =>
    intro s s' h hs
    cases h
    exact ⟨hs, .refl _⟩
  | cons a rest ih =>
    intro s s' h hs
    simp only [acts] at h
    split at h
    · cases h
    · rename_i s1 h1
      obtain ⟨h2, h3⟩ := act_ok h1 hs
      obtain ⟨h4, h5⟩ := ih h h2
      exact ⟨h4, h3.trans h5⟩

/-! ### The outputs are connected -/

/-- What `connect` does to the connector. -/
theorem connect_cases {reg : Registry} {onErr : Ref} {at_ : Nat} {conn : Conn} {o : Out}
    {j : Joined} (h : connect reg onErr at_ conn o = .ok j) :
    (∃ conn' extra edges, j = .link conn' extra edges ∧ conn'.core = conn.core ∧
      conn ≠ .dispose ∧ ∀ to seen, conn ≠ .redirect to seen) ∨
    (j = .dispose ∧ conn = .dispose) ∨
    (∃ to seen, conn = .redirect to seen ∧ o.id ∉ seen ∧
      j = .redirect (.redirect to (o.id :: seen)) to) := by
  cases conn with
  | slot ty scope conv =>
    simp only [connect] at h
    split at h
    · cases h
    · cases h
      exact .inl ⟨_, _, _, rfl, rfl, by simp, by simp⟩
  | dispose =>
    cases h
    exact .inr (.inl ⟨rfl, rfl⟩)
  | cancel scope conv =>
    simp only [connect] at h
    split at h
    · cases h
      exact .inl ⟨_, _, _, rfl, rfl, by simp, by simp⟩
    · split at h
      · cases h
        exact .inl ⟨_, _, _, rfl, rfl, by simp, by simp⟩
      · split at h
        · cases h
          exact .inl ⟨_, _, _, rfl, rfl, by simp, by simp⟩
        · cases h
          exact .inl ⟨_, _, _, rfl, rfl, by simp, by simp⟩
  | redirect to seen =>
    simp only [connect] at h
    split at h
    · cases h
    · rename_i hs
      cases h
      exact .inr (.inr ⟨to, seen, rfl, hs, rfl⟩)
  | hop i out to c mate =>
    cases c with
    | none =>
      cases h
      exact .inl ⟨_, _, _, rfl, rfl, by simp, by simp⟩
    | some c =>
      obtain ⟨ty, conv⟩ := c
      simp only [connect] at h
      split at h
      · cases h
      · cases h
        exact .inl ⟨_, _, _, rfl, rfl, by simp, by simp⟩

/-- The books during a pass, with the outputs `rem` still to be connected. -/
def Pass.Ok (p : Pass) (lost rem : List (Out × Ref)) : Prop :=
  Led p.targets p.fresh (rem ++ (flat p.next ++ flat p.deferred)) p.made p.links p.disposed
    lost ∧
  (∀ e, e ∈ p.next → e.2 ≠ []) ∧ ∀ e, e ∈ p.deferred → e.2 ≠ []

theorem perm_push {rem : List (Out × Ref)} {next deferred : List (Ref × List Out)} {to : Ref}
    {o : Out} : ((o, to) :: (rem ++ (flat next ++ flat deferred))).Perm
      (rem ++ (flat (pushOut next to o) ++ flat deferred)) := by
  have h1 := ((flat_pushOut next to o).symm.append_right (flat deferred)).append_left rem
  refine List.Perm.trans ?_ h1
  have := (List.perm_middle (a := (o, to)) (l₁ := rem) (l₂ := flat next ++ flat deferred)).symm
  simpa using this

theorem addExtra_ok {lost rem : List (Out × Ref)} {extra : List (Ref × Ty × Nat)} :
    ∀ {p : Pass}, p.Ok lost rem → (addExtra p extra).Ok lost rem ∧
      (addExtra p extra).targets = p.targets ∧ (addExtra p extra).deferred = p.deferred := by
  induction extra with
  | nil => intro p h; exact ⟨h, rfl, rfl⟩
  | cons e rest ih =>
    obtain ⟨to, ty, scope⟩ := e
    rintro p ⟨led, ne1, ne2⟩
    simp only [addExtra]
    refine ih (p := { p with
      next := pushOut p.next to ⟨p.fresh, ty, scope⟩
      fresh := p.fresh + 1
      made := p.made ++ [(⟨p.fresh, ty, scope⟩, to)] }) ⟨?_, pushOut_ne ne1, ne2⟩
    exact (led.add to ty scope).permute perm_push

theorem connectAll_ok {reg : Registry} {onErr r : Ref} {lost rem : List (Out × Ref)}
    {t0 : Target} {os : List Out} : ∀ {t : Target} {p p' : Pass},
      connectAll reg onErr r t os p = .ok p' → p.targets.lookup r = some t0 →
      t.scope = t0.scope → t.conn.core = t0.conn.core →
      p.Ok lost ((os.map fun o => (o, r)) ++ rem) →
      p'.Ok lost rem ∧ Keeps p.targets p'.targets ∧ p'.deferred = p.deferred := by
  induction os with
  | nil =>
    intro t p p' h hl hs hc ⟨led, ne1, ne2⟩
    cases h
    have k : Keeps p.targets (setTarget p.targets r t) := .set hl hs hc
    exact ⟨⟨led.keeps k, ne1, ne2⟩, k, rfl⟩
  | cons o rest ih =>
    intro t p p' h hl hs hc hp
    obtain ⟨led, ne1, ne2⟩ := hp
    simp only [connectAll] at h
    cases hj : connect reg onErr t.scope t.conn o with
    | error e => rw [hj] at h; cases h
    | ok j =>
      rw [hj] at h
      rcases connect_cases hj with ⟨conn', extra, edges, rfl, hcore, hd, hr⟩ | ⟨rfl, hd⟩ |
        ⟨to, seen, hd, _, rfl⟩
      · simp only at h
        have hok : Pass.Ok { p with progress := true, links := p.links ++ [⟨o, r, edges⟩] } lost
            ((rest.map fun o => (o, r)) ++ rem) := by
          refine ⟨?_, ne1, ne2⟩
          refine Led.link led hl ?_ ?_ edges
          · intro h'
            rw [h'] at hc
            exact hd (core_dispose hc)
          · intro to seen h'
            rw [h'] at hc
            obtain ⟨s, hs'⟩ := core_redirect hc
            exact hr _ _ hs'
        obtain ⟨e1, e2, e3⟩ := addExtra_ok (extra := extra) hok
        have := ih h (by rw [e2]; exact hl) hs (hcore.trans hc) e1
        rw [e2, e3] at this
        exact this
      · simp only at h
        have hd' : t0.conn = .dispose := by
          rw [hd] at hc
          exact core_dispose hc.symm
        have := ih h hl hs hc ⟨Led.dispose led hl hd', ne1, ne2⟩
        exact this
      · simp only at h
        rw [hd] at hc
        obtain ⟨seen', hs'⟩ := core_redirect hc.symm
        have := ih h hl hs hc
          ⟨(Led.redirect led hl hs').permute perm_push, pushOut_ne ne1, ne2⟩
        exact this

theorem drain_ok {reg : Registry} {onErr : Ref} {busy : Bool} {lost : List (Out × Ref)}
    {rem : List (Ref × List Out)} : ∀ {p p' : Pass},
      drain reg onErr busy rem p = .ok p' → (∀ e, e ∈ rem → e.2 ≠ []) →
      p.Ok lost (flat rem) → p'.Ok lost [] ∧ Keeps p.targets p'.targets := by
  induction rem with
  | nil =>
    intro p p' h _ hp
    cases h
    exact ⟨hp, .refl _⟩
  | cons e rest ih =>
    obtain ⟨r, os⟩ := e
    intro p p' h hne hp
    have hne' := fun e he => hne e (List.mem_cons_of_mem _ he)
    simp only [drain] at h
    cases hl : p.targets.lookup r with
    | none =>
      rw [hl] at h
      simp only at h
      split at h
      · obtain ⟨led, ne1, ne2⟩ := hp
        have := ih h hne' ⟨?_, ne1, ?_⟩
        · exact this
        · refine led.permute ?_
          show List.Perm _ (flat rest ++ (flat p.next ++ flat (p.deferred ++ [(r, os)])))
          rw [flat_append]
          have h1 : flat ((r, os) :: rest) = flat [(r, os)] ++ flat rest := by simp [flat]
          rw [h1]
          have := List.perm_append_comm (l₁ := flat [(r, os)])
            (l₂ := flat rest ++ (flat p.next ++ flat p.deferred))
          simpa using this
        · intro e he
          rcases List.mem_append.1 he with he | he
          · exact ne2 e he
          · rw [List.mem_singleton.1 he]
            exact hne _ List.mem_cons_self
      · cases h
    | some t =>
      rw [hl] at h
      simp only at h
      split at h
      · cases h
      · rename_i p1 h1
        obtain ⟨g1, g2, _⟩ := connectAll_ok h1 hl rfl rfl hp
        obtain ⟨g3, g4⟩ := ih h hne' g1
        exact ⟨g3, g2.trans g4⟩

theorem perm_filter_split {α : Type} (p : α → Bool) (l : List α) :
    (l.filter p ++ l.filter (fun x => !p x)).Perm l := by
  induction l with
  | nil => exact .refl _
  | cons a rest ih =>
    simp only [List.filter_cons]
    cases p a
    · simp only [Bool.not_false, if_true, if_false, Bool.false_eq_true]
      exact List.perm_middle.trans (ih.cons _)
    · simp only [Bool.not_true, if_true, if_false, Bool.false_eq_true]
      exact ih.cons _

theorem pass_ok {reg : Registry} {onErr : Ref}
    {ord : List (Ref × List Out) → List (Ref × List Out)} (hord : ∀ l, (ord l).Perm l)
    {busy : Bool} {s s' : St} {more progress : Bool}
    (h : pass reg onErr ord busy s = .ok (s', more, progress)) (hs : s.Ok) :
    s'.Ok ∧ Keeps s.c.targets s'.c.targets := by
  obtain ⟨led, ne⟩ := hs
  simp only [pass] at h
  split at h
  · cases h
  · rename_i p hp
    cases h
    have := drain_ok (lost := s.lost) hp (fun e he => ne e ((hord _).mem_iff.1 he)) ⟨by
      refine led.permute ?_
      simpa [flat] using (flat_perm (hord s.c.outs)).symm, by simp, by simp⟩
    obtain ⟨⟨led', ne1, ne2⟩, k⟩ := this
    refine ⟨⟨?_, ?_⟩, k⟩
    · show Led p.targets p.fresh (flat (extend p.next p.deferred)) p.made p.links p.disposed
        (s.lost ++ overwritten p.next p.deferred)
      refine Led.lose (led'.permute ?_) ?_
      · have h1 := flat_perm (perm_filter_split
          (fun e : Ref × List Out => (p.deferred.lookup e.1).isSome) p.next)
        rw [flat_append] at h1
        have h2 := h1.symm.append_right (flat p.deferred)
        simp only [List.nil_append]
        refine h2.trans ?_
        unfold extend overwritten
        rw [flat_append]
        have h3 : (fun e : Ref × List Out => !(p.deferred.lookup e.1).isSome) =
            fun e => (p.deferred.lookup e.1).isNone := by
          funext e
          cases p.deferred.lookup e.1 <;> rfl
        rw [h3]
        simp [flat]
      · intro e he
        obtain ⟨x, hx, he'⟩ := List.mem_flatMap.1 he
        obtain ⟨o, _, rfl⟩ := List.mem_map.1 he'
        obtain ⟨hx1, hx2⟩ := List.mem_filter.1 hx
        obtain ⟨os, hos⟩ := Option.isSome_iff_exists.1 hx2
        have hm := mem_of_lookup hos
        have hne := ne2 _ hm
        obtain ⟨o', os', rfl⟩ := List.exists_cons_of_ne_nil hne
        refine ⟨o', ?_⟩
        unfold extend
        rw [flat_append]
        refine List.mem_append_right _ ?_
        exact List.mem_flatMap.2 ⟨_, hm, by simp⟩
    · intro e he
      simp only [extend] at he
      rcases List.mem_append.1 he with he | he
      · exact ne1 e (List.mem_filter.1 he).1
      · exact ne2 e he

theorem inner_ok {reg : Registry} {onErr : Ref} {ord : Order} (hord : ∀ n l, (ord n l).Perm l)
    {busy : Bool} : ∀ {n : Nat} {s s' : St} {q q' : Bool} {left : Nat},
      inner reg onErr ord busy n s q = .ok (s', q', left) → s.Ok →
      s'.Ok ∧ Keeps s.c.targets s'.c.targets := by
  intro n
  induction n with
  | zero =>
    intro s s' q q' left h _
    simp only [inner] at h
    split at h <;> cases h
  | succ n ih =>
    intro s s' q q' left h hs
    simp only [inner] at h
    split at h
    · cases h
    · rename_i s1 more p h1
      obtain ⟨h2, h3⟩ := pass_ok (hord _) h1 hs
      split at h
      · obtain ⟨h4, h5⟩ := ih h h2
        exact ⟨h4, h3.trans h5⟩
      · cases h
        exact ⟨h2, h3⟩

end Verif.Diagram
