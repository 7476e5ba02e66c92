import Verif.Diagram.BuildLemmas

/-
The request and the response of a scope, and its streams: once something is connected to them,
an output on the other side was made.
-/
namespace Verif.Diagram

/-- A connector that leads in or out of a scope has made its output. -/
def HopOk (made : List (Out × Ref)) : Conn → Prop
  | .hop _ outScope to (some (ty, _)) _ =>
    ∃ o : Out, (o, to) ∈ made ∧ o.ty = ty ∧ o.scope = outScope
  | _ => True

def HopsOk (targets : List (Ref × Target)) (made : List (Out × Ref)) : Prop :=
  ∀ e, e ∈ targets → HopOk made e.2.conn

theorem HopOk.mono {made made' : List (Out × Ref)} {c : Conn} (h : HopOk made c)
    (hm : ∀ e, e ∈ made → e ∈ made') : HopOk made' c := by
  cases c with
  | hop i o to x mate =>
    cases x with
    | none => exact h
    | some p =>
      obtain ⟨out, h1, h2⟩ := h
      exact ⟨out, hm _ h1, h2⟩
  | _ => exact h

theorem HopsOk.mono {targets : List (Ref × Target)} {made made' : List (Out × Ref)}
    (h : HopsOk targets made) (hm : ∀ e, e ∈ made → e ∈ made') : HopsOk targets made' :=
  fun e he => (h e he).mono hm

/-- The calls of the operations only make connectors that nothing is connected to. -/
def Act.idle : Act → Prop
  | .target _ c _ => HopOk [] c
  | _ => True

theorem acts_hops {as : List Act} : ∀ {s s' : St}, acts s as = .ok s' → (∀ a, a ∈ as → a.idle) →
    HopsOk s.c.targets s.made → HopsOk s'.c.targets s'.made := by
  induction as with
  | nil => intro s s' h _ hs; cases h; exact hs
  | cons a rest ih =>
    intro s s' h hi hs
    simp only [acts] at h
    split at h
    · cases h
    · rename_i s1 h1
      refine ih h (fun a ha => hi a (List.mem_cons_of_mem _ ha)) ?_
      have ha := hi a List.mem_cons_self
      cases a with
      | out to ty scope =>
        cases h1
        exact hs.mono fun e he => List.mem_append_left _ he
      | target r conn scope =>
        simp only [act] at h1
        split at h1
        · cases h1
        · cases h1
          intro e he
          rcases List.mem_append.1 he with he | he
          · exact hs e he
          · rw [List.mem_singleton.1 he]
            exact HopOk.mono ha (by simp)
      | buffer r b =>
        simp only [act] at h1
        split at h1
        · cases h1
        · cases h1
          exact hs
      | hint r b => cases h1; exact hs
      | child u => cases h1; exact hs
      | newScope => cases h1; exact hs

theorem build_idle {reg : Registry} {ts : List (Name × Template)} {onErr : Ref} {u : UOp}
    {c : Cons} {as : List Act} {st : Status} (h : build reg ts onErr u c = .ok (as, st)) :
    ∀ a, a ∈ as → a.idle := by
  unfold build at h
  simp only at h
  split at h
  · cases h
    simp only [List.mem_cons, List.mem_map]
    rintro a (rfl | rfl | ⟨_, _, rfl⟩) <;> trivial
  · split at h
    · cases h
    · cases h; simp
    · split at h
      · cases h
        simp only [List.mem_cons, List.mem_map]
        rintro a (rfl | ⟨_, _, rfl⟩) <;> trivial
      · cases h
  · split at h
    · cases h
    · cases h; simp
    · split at h
      · cases h
      · split at h
        · cases h
        · cases h
          simp only [List.mem_cons, List.mem_map]
          rintro a (rfl | ⟨_, _, rfl⟩) <;> trivial
  · split at h
    · cases h
    · cases h; simp
    · cases h
      simp only [List.mem_cons, List.not_mem_nil, or_false]
      rintro a (rfl | rfl) <;> trivial
  · split at h
    · cases h
    · cases h; simp
    · split at h
      · cases h
      · split at h
        · cases h
        · split at h
          · cases h
            simp only [List.mem_map]
            rintro a ⟨p, _, rfl⟩
            trivial
          · split at h
            · cases h
              simp only [List.mem_append, List.mem_cons, List.mem_map, List.not_mem_nil,
                or_false]
              rintro a (⟨_, _, rfl⟩ | rfl | rfl) <;> trivial
            · cases h
  · split at h
    · cases h
    · cases h; simp
    · split at h
      · cases h
      · split at h
        · cases h
        · split at h
          · cases h
            simp only [List.mem_map]
            rintro a ⟨p, _, rfl⟩
            trivial
          · split at h
            · cases h
              simp only [List.mem_append, List.mem_cons, List.mem_map, List.not_mem_nil,
                or_false]
              rintro a (⟨_, _, rfl⟩ | rfl) <;> trivial
            · cases h
  · split at h
    · cases h
    · split at h
      · cases h; simp
      · split at h
        · cases h
        · split at h
          · cases h
          · cases h; simp
          · cases h
            simp only [List.mem_cons, List.not_mem_nil, or_false]
            rintro a rfl
            trivial
  · cases h
    simp only [List.mem_cons, List.not_mem_nil, or_false]
    rintro a (rfl | rfl | rfl) <;> trivial
  · cases h
    simp only [List.mem_cons, List.not_mem_nil, or_false]
    rintro a rfl
    trivial
  · split at h
    · cases h
    · split at h
      · cases h
        simp only [List.mem_append, List.mem_flatMap, List.mem_map, redirectInput,
          redirectBuffer, List.mem_cons, List.not_mem_nil, or_false]
        rintro a ((((⟨_, _, rfl⟩ | ⟨_, _, rfl⟩) | ⟨_, _, rfl | rfl⟩) | ⟨_, _, rfl⟩) | rfl) <;>
          trivial
      · cases h
  · cases h
    simp only [List.cons_append, List.mem_cons, List.mem_append, List.mem_map,
      List.not_mem_nil, or_false]
    rintro a (rfl | (⟨_, _, rfl⟩ | ⟨_, _, rfl⟩) | rfl | rfl) <;> trivial

theorem addExtra_extra (extra : List (Ref × Ty × Nat)) : ∀ (p : Pass),
    (addExtra p extra).targets = p.targets ∧
    (∀ e, e ∈ p.made → e ∈ (addExtra p extra).made) ∧
    ∀ to ty scope, (to, ty, scope) ∈ extra →
      ∃ o : Out, (o, to) ∈ (addExtra p extra).made ∧ o.ty = ty ∧ o.scope = scope := by
  induction extra with
  | nil => intro p; exact ⟨rfl, fun _ h => h, by simp⟩
  | cons x rest ih =>
    obtain ⟨to, ty, scope⟩ := x
    intro p
    simp only [addExtra]
    obtain ⟨h0, h1, h2⟩ := ih { p with
      next := pushOut p.next to ⟨p.fresh, ty, scope⟩
      fresh := p.fresh + 1
      made := p.made ++ [(⟨p.fresh, ty, scope⟩, to)] }
    refine ⟨h0, fun e he => h1 e (List.mem_append_left _ he), ?_⟩
    intro to' ty' scope' hm
    rcases List.mem_cons.1 hm with hm | hm
    · cases hm
      exact ⟨⟨p.fresh, ty, scope⟩, h1 _ (List.mem_append_right _ (by simp)), rfl, rfl⟩
    · exact h2 to' ty' scope' hm

theorem connect_hop {reg : Registry} {onErr : Ref} {at_ : Nat} {conn conn' : Conn} {o : Out}
    {extra : List (Ref × Ty × Nat)} {edges : List (Nat × Nat)}
    (h : connect reg onErr at_ conn o = .ok (.link conn' extra edges))
    {made made' : List (Out × Ref)} (hc : HopOk made conn) (hm : ∀ e, e ∈ made → e ∈ made')
    (he : ∀ to ty scope, (to, ty, scope) ∈ extra →
      ∃ o : Out, (o, to) ∈ made' ∧ o.ty = ty ∧ o.scope = scope) : HopOk made' conn' := by
  cases conn with
  | slot ty scope conv =>
    simp only [connect] at h
    split at h
    · cases h
    · cases h; trivial
  | dispose => cases h
  | cancel scope conv =>
    simp only [connect] at h
    split at h
    · cases h; trivial
    · split at h
      · cases h; trivial
      · split at h <;> (cases h; trivial)
  | redirect to seen =>
    simp only [connect] at h
    split at h <;> cases h
  | hop i out to x mate =>
    cases x with
    | none =>
      cases h
      exact he _ _ _ (List.mem_singleton.2 rfl)
    | some p =>
      obtain ⟨ty, conv⟩ := p
      simp only [connect] at h
      split at h
      · cases h
      · cases h
        obtain ⟨o, h1, h2⟩ := hc
        exact ⟨o, hm _ h1, h2⟩

theorem connectAll_hops {reg : Registry} {onErr r : Ref} {os : List Out} :
    ∀ {t : Target} {p p' : Pass}, connectAll reg onErr r t os p = .ok p' →
      HopOk p.made t.conn → HopsOk p.targets p.made → HopsOk p'.targets p'.made := by
  induction os with
  | nil =>
    intro t p p' h ht hs
    cases h
    intro e he
    simp only [setTarget, List.mem_map] at he
    obtain ⟨x, hx, rfl⟩ := he
    split
    · exact ht
    · exact hs x hx
  | cons o rest ih =>
    intro t p p' h ht hs
    simp only [connectAll] at h
    split at h
    · cases h
    · rename_i conn extra edges hj
      obtain ⟨h0, h1, h2⟩ := addExtra_extra extra
        { p with progress := true, links := p.links ++ [⟨o, r, edges⟩] }
      refine ih h (connect_hop hj ht h1 h2) ?_
      rw [h0]
      exact hs.mono h1
    · have := ih h ht hs
      exact this
    · rename_i conn to hj
      have hc : HopOk p.made conn := by
        rcases connect_cases hj with ⟨_, _, _, e, _⟩ | ⟨e, _⟩ | ⟨to', seen, hc, _, e⟩
        · cases e
        · cases e
        · cases e
          trivial
      have := ih h hc hs
      exact this

theorem drain_hops {reg : Registry} {onErr : Ref} {busy : Bool} {rem : List (Ref × List Out)} :
    ∀ {p p' : Pass}, drain reg onErr busy rem p = .ok p' →
      HopsOk p.targets p.made → HopsOk p'.targets p'.made := by
  induction rem with
  | nil => intro p p' h hs; cases h; exact hs
  | cons e rest ih =>
    obtain ⟨r, os⟩ := e
    intro p p' h hs
    simp only [drain] at h
    split at h
    · split at h
      · have := ih h hs
        exact this
      · cases h
    · rename_i t ht
      split at h
      · cases h
      · rename_i p1 h1
        exact ih h (connectAll_hops h1 (hs _ (mem_of_lookup ht)) hs)

theorem inner_hops {reg : Registry} {onErr : Ref} {ord : Order} {busy : Bool} :
    ∀ {n : Nat} {s s' : St} {q q' : Bool} {left : Nat},
      inner reg onErr ord busy n s q = .ok (s', q', left) →
      HopsOk s.c.targets s.made → HopsOk s'.c.targets s'.made := by
  intro n
  induction n with
  | zero =>
    intro s s' q q' left h _
    simp only [inner] at h
    split at h <;> cases h
  | succ n ih =>
    intro s s' q q' left h hs
    simp only [inner] at h
    split at h
    · cases h
    · rename_i s1 more p h1
      have a : HopsOk s1.c.targets s1.made := by
        simp only [pass] at h1
        split at h1
        · cases h1
        · rename_i p hp
          cases h1
          exact drain_hops hp hs
      split at h
      · exact ih h a
      · cases h
        exact a

theorem buildAll_hops {reg : Registry} {ts : List (Name × Template)} {onErr : Ref}
    {us : List UOp} : ∀ {s s' : St} {deferred deferred' : List UOp} {p p' : Bool},
      buildAll (build reg ts onErr) us s deferred p = .ok (s', deferred', p') →
      HopsOk s.c.targets s.made → HopsOk s'.c.targets s'.made := by
  induction us with
  | nil => intro s s' deferred deferred' p p' h hs; cases h; exact hs
  | cons u rest ih =>
    intro s s' deferred deferred' p p' h hs
    simp only [buildAll] at h
    split at h
    · cases h
    · rename_i as status hb
      split at h
      · cases h
      · rename_i s1 h1
        have h2 := acts_hops h1 (build_idle hb) hs
        cases status with
        | finished => exact ih h h2
        | deferred b => exact ih h h2

theorem outer_hops {reg : Registry} {ts : List (Name × Template)} {onErr : Ref} {ord : Order} :
    ∀ {fuel left : Nat} {us : List UOp} {s s' : St},
      outer (build reg ts onErr) reg onErr ord fuel left us s = .ok s' →
      HopsOk s.c.targets s.made → HopsOk s'.c.targets s'.made := by
  intro fuel
  induction fuel with
  | zero => intro left us s s' h; cases h
  | succ fuel ih =>
    intro left us s s' h hs
    simp only [outer] at h
    split at h
    · cases h
      exact hs
    · split at h
      · cases h
      · rename_i s1 us1 p1 h1
        split at h
        · cases h
        · rename_i s2 p2 left2 h2
          split at h
          · split at h
            · cases h
            · exact ih h (inner_hops h2 (buildAll_hops h1 hs))
          · cases h

theorem create_hops {reg : Registry} {io : Io} {ord : Order} {max : Nat} {d : Diagram} {s : St}
    (h : create reg io ord max d = .ok s) : HopsOk s.c.targets s.made := by
  simp only [create] at h
  split at h
  · cases h
  · split at h
    · cases h
    · rename_i s0 h0
      simp only [run] at h
      split at h
      · cases h
      · rename_i s1 h1
        split at h
        · cases h
          refine outer_hops h1 (acts_hops h0 ?_ (by intro e he; cases he))
          intro a ha
          simp only [builtins, List.cons_append, List.mem_cons, List.mem_append,
            List.mem_map, List.not_mem_nil, or_false] at ha
          rcases ha with rfl | rfl | ⟨_, _, rfl⟩ | rfl | rfl <;> trivial
        · cases h

end Verif.Diagram
