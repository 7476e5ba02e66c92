import Verif.Diagram.NameProps
import Verif.Diagram.Witness

/-
C74, about buffers that are used through the sections that expose them: the part that holds.
-/
namespace Verif.Diagram

/-- The references lead from the name to a buffer of this type. -/
def LeadsTo (bufs : List (Ref × BufRef)) (r : Ref) (ty : Ty) : Prop :=
  ∃ r', Star (RefersTo bufs) r r' ∧ bufs.lookup r' = some (.value ty)

/-- In two constructions with the buffers `bufs` and `bufs'`, the names in the one list lead to
buffers of the same types as those in the other, one by one. -/
inductive Alike (bufs bufs' : List (Ref × BufRef)) (ns : List Name) :
    List Next → List Next → Prop where
  | nil : Alike bufs bufs' ns [] []
  | cons {n m : Next} {as bs : List Next} :
    (∀ ty, LeadsTo bufs ((Ref.ofNext n).inNs ns) ty ↔ LeadsTo bufs' ((Ref.ofNext m).inNs ns) ty) →
    Alike bufs bufs' ns as bs → Alike bufs bufs' ns (n :: as) (m :: bs)

/-- What an operation does when it is built, except for the hints that it leaves about the types
of its buffers. -/
def unhinted (r : List Act × Status) : List Act × Status :=
  (r.1.filter fun a => match a with | .hint _ _ => false | _ => true, r.2)

theorem getBuffer_through {bufs : List (Ref × BufRef)} {r r' : Ref}
    (h : Star (RefersTo bufs) r r') (t : Ty) :
    getBuffer bufs r = .ok t ↔ getBuffer bufs r' = .ok t := by
  rw [(C46_buffer bufs r).2.1 t, (C46_buffer bufs r').2.1 t]
  constructor
  · rintro ⟨x, hx, hv⟩
    refine ⟨x, ?_, hv⟩
    rcases RefersTo.meet h hx with g | g
    · exact g
    · rcases g.cases_head' with e | ⟨y, hy, _⟩
      · subst e; exact .refl
      · unfold RefersTo at hy
        rw [hv] at hy
        cases hy
  · rintro ⟨x, hx, hv⟩
    exact ⟨x, h.trans hx, hv⟩

theorem bufferMap_alike {bufs bufs' : List (Ref × BufRef)} {ns : List Name} {as bs : List Next}
    (h : Alike bufs bufs' ns as bs) :
    as.length = bs.length ∧
    ((∃ tys, bufferMap bufs (as.map fun n => intoRef ns (Ref.ofNext n)) = .ok tys ∧
        bufferMap bufs' (bs.map fun n => intoRef ns (Ref.ofNext n)) = .ok tys) ∨
      ((∃ e, bufferMap bufs (as.map fun n => intoRef ns (Ref.ofNext n)) = .error e) ∧
        ∃ e, bufferMap bufs' (bs.map fun n => intoRef ns (Ref.ofNext n)) = .error e)) := by
  induction h with
  | nil => exact ⟨rfl, .inl ⟨[], rfl, rfl⟩⟩
  | @cons n m as bs h0 _ ih =>
    have h1 : ∀ t, getBuffer bufs ((Ref.ofNext n).inNs ns) = .ok t ↔
        getBuffer bufs' ((Ref.ofNext m).inNs ns) = .ok t := by
      intro t
      rw [(C46_buffer bufs _).2.1 t, (C46_buffer bufs' _).2.1 t]
      exact h0 t
    refine ⟨by simp [ih.1], ?_⟩
    simp only [List.map_cons, bufferMap, intoRef]
    cases hx : getBuffer bufs ((Ref.ofNext n).inNs ns) with
    | ok t =>
      rw [(h1 t).1 hx]
      rcases ih.2 with ⟨tys, e1, e2⟩ | ⟨⟨e, e1⟩, e', e2⟩
      · simp only [intoRef] at e1 e2
        left; exact ⟨t :: tys, by rw [e1], by rw [e2]⟩
      · simp only [intoRef] at e1 e2
        right; exact ⟨⟨e, by rw [e1]⟩, e', by rw [e2]⟩
    | error e =>
      cases hy : getBuffer bufs' ((Ref.ofNext m).inNs ns) with
      | ok t => rw [(h1 t).2 hy] at hx; cases hx
      | error e' => right; exact ⟨⟨e, rfl⟩, e', rfl⟩

theorem inferInput_bufs (c : Cons) (bufs' : List (Ref × BufRef)) (r : Ref) :
    inferInput { c with bufs := bufs' } r = inferInput c r := rfl

/-- C74, partial: an operation that refers to buffers through the sections that expose them, in
one construction, is built just like one that refers to such buffers directly, in another one. Only
the hints about the types of the buffers differ. -/
theorem C74_through_partial (reg : Registry) (ts : List (Name × Template)) (onErr : Ref) (u : UOp)
    (c : Cons) (bufs' : List (Ref × BufRef)) (next : Next) (as bs : List Next)
    (h : Alike c.bufs bufs' u.ns as bs) :
    let c' := { c with bufs := bufs' }
    (∀ clone ser, build reg ts onErr { u with schema := .join next as clone ser } c =
      build reg ts onErr { u with schema := .join next bs clone ser } c') ∧
    (build reg ts onErr { u with schema := .access next as } c).map unhinted =
      (build reg ts onErr { u with schema := .access next bs } c').map unhinted ∧
    (build reg ts onErr { u with schema := .listen next as } c).map unhinted =
      (build reg ts onErr { u with schema := .listen next bs } c').map unhinted := by
  intro c'
  obtain ⟨hl, hm⟩ := bufferMap_alike h
  have hints : ∀ (l : List Next) (hs : List Hint),
      ((l.zip hs).map fun p => Act.hint (intoRef u.ns (Ref.ofNext p.1)) p.2).filter
        (fun a => match a with | .hint _ _ => false | _ => true) = [] := by
    intro l hs
    rw [List.filter_eq_nil_iff]
    intro a ha
    obtain ⟨p, _, rfl⟩ := List.mem_map.1 ha
    simp
  refine ⟨fun clone ser => ?_, ?_, ?_⟩
  · have he : as.isEmpty = bs.isEmpty := by
      cases as <;> cases bs <;> simp_all
    rcases hm with ⟨tys, e1, e2⟩ | ⟨⟨e, e1⟩, e', e2⟩ <;> simp only [build, e1, c', e2, he, joinType, inferInput_bufs]
  · rcases hm with ⟨tys, e1, e2⟩ | ⟨⟨e, e1⟩, e', e2⟩ <;> simp only [build, e1, c', e2, hl, inferInput_bufs]
    all_goals
      repeat' split
      all_goals first
        | rfl
        | simp [Except.map, unhinted, List.filter_append, hints]
  · rcases hm with ⟨tys, e1, e2⟩ | ⟨⟨e, e1⟩, e', e2⟩ <;> simp only [build, e1, c', e2, hl, inferInput_bufs]
    all_goals
      repeat' split
      all_goals first
        | rfl
        | simp [Except.map, unhinted, List.filter_append, hints]

/-- C74, partial: in a diagram that was built, each buffer that a section exposes leads to the
buffer inside of the section. -/
theorem C74_exposed_partial {reg : Registry} {io : Io} {ord : Order} {max : Nat} {d : Diagram}
    {s : St} (hd : d.Keyed) (hord : Drains ord) (h : create reg io ord max d = .ok s)
    {ns : List Name} {id t : Name} {con : List (Name × Next)} {tmpl : Template}
    (hat : d.Has ns id (.template t con)) (ht : d.templates.lookup t = some tmpl)
    {slot : Name} {n : Next} (hb : (slot, n) ∈ tmpl.buffers) :
    RefersTo s.c.bufs (.named ns (some id) slot) ((Ref.ofNext n).inNs (ns ++ [id])) ∧
    ∀ ty, getBuffer s.c.bufs (.named ns (some id) slot) = .ok ty ↔
      getBuffer s.c.bufs ((Ref.ofNext n).inNs (ns ++ [id])) = .ok ty := by
  obtain ⟨inv, _⟩ := create_inv hd hord h
  obtain ⟨u, hu, rfl, rfl, hsch⟩ := inv.all hat
  obtain ⟨c, as, hbd, _, hk, _, _⟩ := (create_found hord h).2 u hu
  have key : RefersTo s.c.bufs (.named u.ns (some u.id) slot)
      ((Ref.ofNext n).inNs (u.ns ++ [u.id])) := by
    refine hk _ _ ?_
    unfold build at hbd
    simp only [hsch, ht] at hbd
    split at hbd
    · cases hbd
      simp only [List.mem_append, List.mem_flatMap]
      exact .inl (.inl (.inr ⟨(slot, n), hb, by simp [redirectBuffer, exposedAndInner]⟩))
    · cases hbd
  exact ⟨key, getBuffer_through (.tail .refl key)⟩

/-- The buffer `51` inside of the section `5` is used as it would be if it was beside it. -/
example (reg : Registry) (u : UOp) (c : Cons) (hu : u.ns = [])
    (hc : c.bufs = [(.named [] none 20, .value 3), (.named [5] none 51, .value 4),
      (.named [] (some 5) 50, .ref (.named [5] none 51))]) :
    build reg [] .dispose { u with schema := .join (.name 2) [.name 20, .exposed 5 50] [0] false } c =
      build reg [] .dispose { u with schema := .join (.name 2) [.name 20, .name 51] [0] false }
        { c with bufs := [(.named [] none 20, .value 3), (.named [] none 51, .value 4)] } := by
  have e1 : ∀ (bufs : List (Ref × BufRef)) r ty, LeadsTo bufs r ty ↔ getBuffer bufs r = .ok ty :=
    fun bufs r ty => ((C46_buffer bufs r).2.1 ty).symm
  refine (C74_through_partial reg [] .dispose u c _ (.name 2) _ _ ?_).1 [0] false
  rw [hu, hc]
  refine .cons (fun ty => ?_) (.cons (fun ty => ?_) .nil) <;> rw [e1, e1] <;> rfl

example : ∃ s, create sampleReg ⟨3, 3, []⟩ inOrder 10000 joinD = .ok s ∧
    RefersTo s.c.bufs (.named [] (some 5) 50) (.named [5] none 51) := by
  obtain ⟨s, h⟩ : ∃ s, create sampleReg ⟨3, 3, []⟩ inOrder 10000 joinD = .ok s :=
    of_isOk (by decide +kernel)
  exact ⟨s, h, (C74_exposed_partial joinD_keyed inOrder_drains h (has_root (d := joinD) 7 rfl) rfl
    (slot := 50) (n := .name 51) (List.mem_singleton.2 rfl)).1⟩

end Verif.Diagram
