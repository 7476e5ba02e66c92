import Verif.Diagram.NameProps

/-
Concrete diagrams: the properties of whole diagrams are not vacuous, and where they are false
of the code.
-/
namespace Verif.Diagram

/-- A registry: type `4` can be serialized, `5` deserialized; all types can be cloned; a buffer
access that yields `2` takes `1` and needs a buffer of `3`; `6` is a result of `7` and `8`. -/
def sampleReg : Registry where
  ser t := t = 4
  de t := t = 5
  str _ := false
  clone _ := true
  parts t := if t = 6 then some [7, 8] else none
  access t := if t = 2 then some (1, [.exact 3]) else none
  listen _ := none
  join t := if t = 7 then some [.exact 3, .fallback 8] else none
  jsonBuf t := t = 3
  errTy := 9

/-- The entries in the order in which they were inserted. -/
def inOrder : Order := fun _ l => l

theorem inOrder_drains : Drains inOrder := fun _ l => .refl l

def isOk {α : Type} : Except Err α → Bool
  | .ok _ => true
  | .error _ => false

theorem of_isOk {α : Type} {x : Except Err α} (h : isOk x = true) : ∃ a, x = .ok a := by
  cases x with
  | ok a => exact ⟨a, rfl⟩
  | error e => cases h

/-- The error, if it is one. -/
def errOf {α : Type} : Except Err α → Option Err
  | .error e => some e
  | .ok _ => none

theorem of_errOf {α : Type} {x : Except Err α} {e : Err} (h : errOf x = some e) : x = .error e := by
  cases x with
  | ok a => cases h
  | error e' => cases h; rfl

/-- A part of the result. -/
def part {α : Type} (f : St → α) : Except Err St → Option α
  | .ok s => some (f s)
  | .error _ => none

theorem of_part {α : Type} {f : St → α} {x : Except Err St} {a : α} (h : part f x = some a) :
    ∃ s, x = .ok s ∧ f s = a := by
  cases x with
  | ok s => cases h; exact ⟨s, rfl, rfl⟩
  | error e => cases h

/-- Lists of operations without scopes have no repeated keys when their names are distinct. -/
theorem distinct_flat {ops : List (Name × Schema)} (h : (ops.map (·.1)).Nodup)
    (hs : ops.all (fun e => match e.2 with | .scope _ _ _ _ => false | _ => true) = true) :
    Distinct ops := by
  refine .mk h ?_
  intro id start next streams inner hm
  have := List.all_eq_true.1 hs _ hm
  cases this

/-- A diagram with a fork, a section with an input and an output, and a scope. -/
def sampleD : Diagram where
  start := .name 0
  ops := [(0, .forkClone [.name 1, .exposed 2 10]), (1, .node 0 3 .dispose []),
    (2, .template 100 [(11, .name 3)]),
    (3, .scope (.name 30) .terminate [] [(30, .node 1 7 .terminate [])])]
  templates := [(100, ⟨[(20, .node 0 1 (.name 11) [])], [(10, .name 20)], [], [11]⟩)]
  onErr := none

theorem sampleD_keyed : sampleD.Keyed := by
  refine ⟨.mk (by decide) ?_, ?_⟩
  · intro id start next streams inner hm
    simp only [sampleD, List.mem_cons, Prod.mk.injEq, reduceCtorEq, and_false, false_or,
      Schema.scope.injEq, List.not_mem_nil, or_false] at hm
    obtain ⟨_, _, _, _, rfl⟩ := hm
    exact distinct_flat (by decide) rfl
  · intro n t hm
    simp only [sampleD, List.mem_singleton, Prod.mk.injEq] at hm
    obtain ⟨_, rfl⟩ := hm
    exact distinct_flat (by decide) rfl

theorem sampleD_ok : ∃ s, create sampleReg ⟨0, 7, []⟩ inOrder 10000 sampleD = .ok s ∧
    s.links.map (fun l => (l.out.id, l.into)) =
      [(1, .named [] none 0), (2, .named [] none 1), (3, .named [2] none 20),
        (7, .terminate [3]), (6, .named [] none 3), (8, .terminate []), (9, .named [3] none 30)] ∧
    s.disposed = [(⟨4, 3, 0⟩, .dispose)] ∧ s.lost = [] := by
  obtain ⟨s, h1, h2⟩ := of_part (f := fun s => (s.links.map (fun l => (l.out.id, l.into)),
    s.disposed, s.lost)) (x := create sampleReg ⟨0, 7, []⟩ inOrder 10000 sampleD)
    (a := ([(1, .named [] none 0), (2, .named [] none 1), (3, .named [2] none 20),
        (7, .terminate [3]), (6, .named [] none 3), (8, .terminate []), (9, .named [3] none 30)],
      [(⟨4, 3, 0⟩, .dispose)], [])) (by decide +kernel)
  simp only [Prod.mk.injEq] at h2
  exact ⟨s, h1, h2.1, h2.2.1, h2.2.2⟩


/-- The build of `sampleD`. -/
theorem sampleD_built : ∃ s, create sampleReg ⟨0, 7, []⟩ inOrder 10000 sampleD = .ok s := by
  obtain ⟨s, h, _⟩ := sampleD_ok
  exact ⟨s, h⟩

theorem has_root {d : Diagram} {id : Name} {s : Schema} (n : Nat)
    (h : d.ops[n]? = some (id, s)) : d.Has [] id s :=
  .root (List.mem_of_getElem? h)

theorem has_section {d : Diagram} {ns : List Name} {id id' t : Name} {c : List (Name × Next)}
    {sec : Template} {s : Schema} (h : d.Has ns id (.template t c)) (n : Nat)
    (hl : d.templates.lookup t = some sec) (hm : sec.ops[n]? = some (id', s)) :
    d.Has (ns ++ [id]) id' s :=
  .inTemplate h hl (List.mem_of_getElem? hm)

theorem has_scope {d : Diagram} {ns : List Name} {id id' : Name} {a b : Next}
    {c : List (Name × Next)} {ops : List (Name × Schema)} {s : Schema}
    (h : d.Has ns id (.scope a b c ops)) (n : Nat) (hm : ops[n]? = some (id', s)) :
    d.Has (ns ++ [id]) id' s :=
  .inScope h (List.mem_of_getElem? hm)

/-- The operation inside of the section is one of the operations of the diagram. -/
theorem sampleD_section : sampleD.Has [2] 20 (.node 0 1 (.name 11) []) :=
  has_section (has_root 2 rfl) 0 rfl rfl

theorem sampleD_scope : sampleD.Has [3] 30 (.node 1 7 .terminate []) :=
  has_scope (has_root 3 rfl) 0 rfl

/-! ### C69 -/

example : ∃ s, create sampleReg ⟨0, 7, []⟩ inOrder 10000 sampleD = .ok s ∧
    (∃ u, u ∈ s.done ∧ u.ns = [2] ∧ u.id = 20 ∧ u.schema = .node 0 1 (.name 11) []) ∧
    (s.done.map fun u => (u.ns, u.id)).Nodup := by
  obtain ⟨s, h⟩ := sampleD_built
  exact ⟨s, h, (C69_exactly sampleD_keyed inOrder_drains h _ _ _).1 sampleD_section,
    C69_once sampleD_keyed inOrder_drains h⟩

/-! ### C44 -/

example : ∃ s, create sampleReg ⟨0, 7, []⟩ inOrder 10000 sampleD = .ok s ∧
    (∃ l, l ∈ s.links ∧ (l.out, Ref.named [] none 1) ∈ s.made ∧ l.into = .named [] none 1) ∧
    PassesTo s.c.targets (.named [] (some 2) 10) (.named [2] none 20) ∧
    (∃ o o' : Out, (o, Ref.named [3] none 30) ∈ s.made ∧ (o', Ref.terminate []) ∈ s.made) := by
  obtain ⟨s, h⟩ := sampleD_built
  refine ⟨s, h, ?_, ?_, ?_⟩
  · exact C44_direct sampleD_keyed inOrder_drains h (ns := []) (id := 0) (id' := 1)
      (has_root 0 rfl) (has_root 1 rfl) (by simp [Schema.nexts]) rfl
  · exact (C44_section sampleD_keyed inOrder_drains h (ns := []) (id := 2) (t := 100)
      (has_root 2 rfl) rfl).1 10 (.name 20) (by simp)
  · obtain ⟨o, o', h1, h2, _⟩ := C44_scope sampleD_keyed inOrder_drains h (ns := []) (id := 3)
      (has_root 3 rfl)
    exact ⟨o, o', h1, h2⟩

example : ∃ s, create sampleReg ⟨0, 7, []⟩ inOrder 10000 sampleD = .ok s ∧
    s.made.length = s.links.length + s.disposed.length ∧
    ∃ ms : List (Out × Ref), ms.Sublist s.made ∧ ms.map (·.2) = [Ref.named [2] none 11] ∧
      ∀ e, e ∈ ms → Connected s e.1 e.2 ∨ Disposed s e.1 e.2 := by
  obtain ⟨s, h, _, _, h3⟩ := sampleD_ok
  refine ⟨s, h, ?_, ?_⟩
  · have := (C44_once sampleD_keyed inOrder_drains h).2.length_eq
    simp only [h3, List.map_nil, List.append_nil, List.length_append, List.length_map] at this
    exact this
  · obtain ⟨ms, h1, h2, h4⟩ := C44_partial sampleD_keyed inOrder_drains h sampleD_section
    refine ⟨ms, h1, h2, fun e he => ?_⟩
    rcases h4 e he with h5 | h5 | ⟨_, _, _, h5, _⟩
    · exact .inl h5
    · exact .inr h5
    · rw [h3] at h5
      cases h5

/-- A diagram in which two outputs lead to the same operation, which waits for its buffer: one
of them through the output of a section. -/
def lostD : Diagram where
  start := .name 0
  ops := [(0, .forkClone [.name 2, .exposed 3 10]), (1, .access (.exposed 4 10) [.name 5]),
    (2, .node 0 1 (.name 1) []), (3, .template 100 [(11, .name 1)]), (4, .template 101 []),
    (5, .buffer false)]
  templates := [(100, ⟨[(20, .node 0 1 (.name 11) [])], [(10, .name 20)], [], [11]⟩),
    (101, ⟨[(21, .node 2 0 .terminate [])], [(10, .name 21)], [], []⟩)]
  onErr := none

theorem lostD_keyed : lostD.Keyed := by
  refine ⟨distinct_flat (by decide) rfl, ?_⟩
  intro n t hm
  simp only [lostD, List.mem_cons, List.not_mem_nil, or_false, Prod.mk.injEq] at hm
  rcases hm with ⟨_, rfl⟩ | ⟨_, rfl⟩ <;> exact distinct_flat (by decide) rfl

/-- C44, violated: the build of a diagram succeeds though an output, of the operation `20` inside
of the section `3`, was dropped: it is neither connected nor disposed of. The map of deferred
connections replaced the entry that the output was redirected to. -/
theorem C44_violated : ∃ (reg : Registry) (io : Io) (ord : Order) (max : Nat) (d : Diagram)
    (s : St) (o : Out) (r : Ref), d.Keyed ∧ Drains ord ∧ create reg io ord max d = .ok s ∧
    d.Has [3] 20 (.node 0 1 (.name 11) []) ∧ r = .named [3] none 11 ∧ (o, r) ∈ s.made ∧
    Lost s o r ∧ ¬ Connected s o r ∧ ¬ Disposed s o r := by
  obtain ⟨s, h1, h2⟩ := of_part (f := fun s => (decide ((⟨5, 1, 0⟩, .named [3] none 11) ∈ s.made),
    s.links.map (·.out.id), s.disposed)) (x := create sampleReg ⟨0, 0, []⟩ inOrder 10000 lostD)
    (a := (true, [1, 2, 3, 6, 4, 7], [])) (by decide +kernel)
  simp only [Prod.mk.injEq, decide_eq_true_eq] at h2
  obtain ⟨h2, h3, h4⟩ := h2
  have nc : ¬ Connected s ⟨5, 1, 0⟩ (.named [3] none 11) := by
    rintro ⟨l, t, hl, ho, _⟩
    have : (5 : Nat) ∈ s.links.map (·.out.id) := List.mem_map.2 ⟨l, hl, by rw [ho]⟩
    rw [h3] at this
    revert this
    decide
  have nd : ¬ Disposed s ⟨5, 1, 0⟩ (.named [3] none 11) := by
    rintro ⟨r', sc, h5, _⟩
    rw [h4] at h5
    cases h5
  refine ⟨sampleReg, ⟨0, 0, []⟩, inOrder, 10000, lostD, s, ⟨5, 1, 0⟩, .named [3] none 11,
    lostD_keyed, inOrder_drains, h1, ?_, rfl, h2, ?_, nc, nd⟩
  · exact has_section (has_root 3 rfl) 0 rfl rfl
  · obtain ⟨inv, hp, _⟩ := create_inv lostD_keyed inOrder_drains h1
    rcases inv.ok.settled hp h2 with h5 | h5 | h5
    · exact absurd h5 nc
    · exact absurd h5 nd
    · exact h5

/-! ### C70: the order of the operations -/

/-- Two nodes that lead to a fork; the type of the first connection becomes the type of the
fork. -/
def detD (b : Bool) : Diagram where
  start := .name 0
  ops := (0, .forkClone [.name 1, .name 2]) ::
    ((if b then [(1, .node 0 5 (.name 3) []), (2, .node 0 0 (.name 3) [])]
      else [(2, .node 0 0 (.name 3) []), (1, .node 0 5 (.name 3) [])]) ++
    [(3, .forkClone [.terminate])])
  templates := []
  onErr := none

/-- C70, violated: two diagrams that only differ in the order in which their map of operations
is traversed; one can be built, the other cannot. -/
theorem C70_violated : ∃ (reg : Registry) (io : Io) (max : Nat) (d d' : Diagram) (s : St)
    (e : Err), d.ops.Perm d'.ops ∧ d.start = d'.start ∧ d.templates = d'.templates ∧
    d.onErr = d'.onErr ∧ create reg io inOrder max d = .ok s ∧
    create reg io inOrder max d' = .error e := by
  obtain ⟨s, h1⟩ := of_isOk (x := create sampleReg ⟨0, 5, []⟩ inOrder 10000 (detD true))
    (by decide +kernel)
  have h2 := of_errOf (x := create sampleReg ⟨0, 5, []⟩ inOrder 10000 (detD false))
    (e := .notSerializable) (by decide +kernel)
  refine ⟨sampleReg, ⟨0, 5, []⟩, 10000, detD true, detD false, s, .notSerializable, ?_, rfl, rfl,
    rfl, h1, h2⟩
  exact .cons _ (.append_right _ (.swap _ _ _))

/-! ### C71 -/

example : ∃ r, create sampleReg ⟨0, 7, []⟩ inOrder 10000 sampleD = r ∧ r ≠ .error .fuel :=
  ⟨_, rfl, C71_ends sampleReg ⟨0, 7, []⟩ inOrder 10000 sampleD⟩

/-! ### C72: hypotheses of the violations -/

/-- A scope with an operation that leads to `cancel`. -/
def cancelD : Diagram where
  start := .name 3
  ops := [(3, .scope (.name 30) .terminate [] [(30, .node 0 0 .cancel [])])]
  templates := []
  onErr := none

theorem cancelD_keyed : cancelD.Keyed := by
  refine ⟨.mk (by decide) ?_, by simp [cancelD]⟩
  intro id start next streams inner hm
  simp only [cancelD, List.mem_cons, Prod.mk.injEq, Schema.scope.injEq, List.not_mem_nil,
    or_false] at hm
  obtain ⟨_, _, _, _, rfl⟩ := hm
  exact distinct_flat (by decide) rfl

example (s : St) : create sampleReg ⟨0, 2, []⟩ inOrder 10000 cancelD ≠ .ok s :=
  C72_cancel_violated cancelD_keyed inOrder_drains (ns := [3]) (id := 30)
    (sch := .node 0 0 .cancel []) (has_scope (ns := []) (has_root 0 rfl) 0 rfl) (by simp) (by simp [Schema.nexts]) s

example : create sampleReg ⟨0, 2, []⟩ inOrder 10000 cancelD =
    .error (.unknownOperation (.cancel [3])) :=
  of_errOf (by decide +kernel)

/-- A section with a transform. -/
def transformD : Diagram where
  start := .exposed 3 10
  ops := [(3, .template 100 [])]
  templates := [(100, ⟨[(20, .transform .terminate none)], [(10, .name 20)], [], []⟩)]
  onErr := none

theorem transformD_keyed : transformD.Keyed := by
  refine ⟨distinct_flat (by decide) rfl, ?_⟩
  intro n t hm
  simp only [transformD, List.mem_singleton, Prod.mk.injEq] at hm
  obtain ⟨_, rfl⟩ := hm
  exact distinct_flat (by decide) rfl

example (s : St) : create sampleReg ⟨0, 0, []⟩ inOrder 10000 transformD ≠ .ok s :=
  C72_transform_violated transformD_keyed inOrder_drains (ns := [3]) (id := 20)
    (has_section (ns := []) (has_root 0 rfl) 0 rfl rfl) (by simp) rfl s

/-! ### C74: the hints for an exposed buffer -/

/-- A buffer access that refers to a buffer exposed by a section. -/
def hintD : Diagram where
  start := .name 1
  ops := [(1, .access .terminate [.exposed 3 10]), (3, .template 100 [])]
  templates := [(100, ⟨[(20, .buffer false)], [], [(10, .name 20)], []⟩)]
  onErr := none

/-- C74, violated: the type of the buffer is given by the access, but the access refers to the
buffer through the section, and the build fails. -/
theorem C74_violated : create sampleReg ⟨1, 2, []⟩ inOrder 10000 hintD =
    .error .halted :=
  of_errOf (by decide +kernel)

/-- The same access to a buffer that is not inside of a section. -/
example : ∃ s, create sampleReg ⟨1, 2, []⟩ inOrder 10000
    ⟨.name 1, [(1, .access .terminate [.name 20]), (20, .buffer false)], [], none⟩ = .ok s :=
  of_isOk (by decide +kernel)

/-! ### C73: connections across scopes -/

example : ∃ s, create sampleReg ⟨0, 7, []⟩ inOrder 10000 sampleD = .ok s ∧
    ∃ k, k ≠ 0 ∧ ∃ o : Out, o.scope = k ∧ (o, Ref.named [3] none 30) ∈ s.made ∧
      ∀ l, l ∈ s.links → l.out = o → l.Within k ∨ sampleD.ScopeEnd l.into := by
  obtain ⟨s, h⟩ := sampleD_built
  obtain ⟨k, k', t, _, h1, h2, h3, _, _, o, _, h4, _, h5, _, h6⟩ :=
    C73_scope_partial sampleD_keyed inOrder_drains h (ns := []) (id := 3)
      (has_root 3 rfl)
  obtain ⟨inv, _⟩ := create_inv sampleD_keyed inOrder_drains h
  have h7 : k' = 0 := Scoped.det inv ((inv.targetScope h2).1 k' h3).1 .root
  refine ⟨s, h, k, fun h0 => h1 (h0.trans h7.symm), o, h4, h5, fun l hl hlo => (h6 l hl).1 hlo⟩

example : ∃ s, create sampleReg ⟨0, 7, []⟩ inOrder 10000 sampleD = .ok s ∧
    ∃ k, ∃ ms : List (Out × Ref), ms.map (·.2) = [Ref.named [2] none 11] ∧
      ∀ e, e ∈ ms → ∀ l, l ∈ s.links → l.out = e.1 → l.Within k ∨ sampleD.ScopeEnd l.into := by
  obtain ⟨s, h⟩ := sampleD_built
  obtain ⟨k, _, ms, _, h1, h2⟩ := C73_partial sampleD_keyed inOrder_drains h sampleD_section
  exact ⟨s, h, k, ms, h1, fun e he => (h2 e he).2⟩

/-- A scope with a converter inside: the output of `30` is serialized for `31`. -/
def crossD : Diagram where
  start := .name 3
  ops := [(3, .scope (.name 30) .terminate []
    [(30, .node 0 4 (.name 31) []), (31, .node 0 7 .terminate [])])]
  templates := []
  onErr := none

/-- C73, violated: the error output of a converter inside of a scope is connected to the target
for errors of the whole workflow, in another scope. -/
theorem C73_error_violated : ∃ s, create sampleReg ⟨0, 7, []⟩ inOrder 10000 crossD = .ok s ∧
    ∃ l, l ∈ s.links ∧ l.out.scope = 2 ∧ l.into = .cancel [] ∧ (2, 0) ∈ l.edges := by
  obtain ⟨s, h1, h2⟩ := of_part (f := fun s => s.links.any fun l =>
    decide (l.out.scope = 2 ∧ l.into = .cancel [] ∧ (2, 0) ∈ l.edges))
    (x := create sampleReg ⟨0, 7, []⟩ inOrder 10000 crossD) (a := true) (by decide +kernel)
  obtain ⟨l, h3, h4⟩ := List.any_eq_true.1 h2
  exact ⟨s, h1, l, h3, of_decide_eq_true h4⟩

/-- A scope with two responses, one of which has to be converted. -/
def responseD : Diagram where
  start := .name 3
  ops := [(3, .scope (.name 30) .terminate []
    [(30, .forkClone [.name 31, .name 32]), (31, .node 7 0 .terminate []),
     (32, .node 7 4 .terminate [])])]
  templates := []
  onErr := none

/-- C73, violated: the converter for the response of a scope is created outside of the scope, so
that there is a connection out of the scope and another one back into it. -/
theorem C73_response_violated :
    ∃ s, create sampleReg ⟨7, 0, []⟩ inOrder 10000 responseD = .ok s ∧
      ∃ l, l ∈ s.links ∧ l.out.scope = 2 ∧ l.into = .terminate [3] ∧
        (2, 0) ∈ l.edges ∧ (0, 2) ∈ l.edges := by
  obtain ⟨s, h1, h2⟩ := of_part (f := fun s => s.links.any fun l =>
    decide (l.out.scope = 2 ∧ l.into = .terminate [3] ∧ (2, 0) ∈ l.edges ∧ (0, 2) ∈ l.edges))
    (x := create sampleReg ⟨7, 0, []⟩ inOrder 10000 responseD) (a := true) (by decide +kernel)
  obtain ⟨l, h3, h4⟩ := List.any_eq_true.1 h2
  exact ⟨s, h1, l, h3, of_decide_eq_true h4⟩

/-! ### C75 and C76: types -/

example : ∃ s, create sampleReg ⟨0, 7, []⟩ inOrder 10000 sampleD = .ok s ∧
    (∃ tys, Typed sampleReg (.node 0 1 (.name 11) []) 0 tys ∧ tys = [1]) ∧
    (∀ l, l ∈ s.links → l.into = .terminate [] → Fits sampleReg l.out.ty 7) ∧
    ∃ o : Out, (o, Ref.named [3] none 30) ∈ s.made ∧
      ∀ l, l ∈ s.links → l.into = .named [] none 3 → Fits sampleReg l.out.ty o.ty := by
  obtain ⟨s, h⟩ := sampleD_built
  obtain ⟨ty, tys, h1, h2, ms, _, h3, h4⟩ :=
    C75_operation sampleD_keyed inOrder_drains h sampleD_section rfl (by simp)
  refine ⟨s, h, ?_, (C75_io sampleD_keyed inOrder_drains h).2.1,
    (C75_scope sampleD_keyed inOrder_drains h (ns := []) (id := 3) (has_root 3 rfl)).1⟩
  cases h1
  exact ⟨_, .node, rfl⟩

/-- A buffer access, and a node whose output has to be converted. -/
def accessD : Diagram where
  start := .name 0
  ops := [(0, .node 4 1 (.name 1) []), (1, .access (.name 2) [.name 20]),
    (2, .node 2 4 .terminate []), (20, .buffer false)]
  templates := []
  onErr := none

theorem accessD_keyed : accessD.Keyed := by
  refine ⟨distinct_flat (by decide) rfl, ?_⟩
  intro n t hm
  simp [accessD] at hm

example : ∃ s, create sampleReg ⟨4, 0, []⟩ inOrder 10000 accessD = .ok s ∧
    (∃ ty msg hints, sampleReg.access ty = some (msg, hints) ∧ Holds s [] [.name 20] hints) ∧
    ∃ ty, s.c.bufs.lookup (.named [] none 20) = some (.value ty) := by
  obtain ⟨s, h⟩ : ∃ s, create sampleReg ⟨4, 0, []⟩ inOrder 10000 accessD = .ok s :=
    of_isOk (by decide +kernel)
  obtain ⟨ty, msg, hints, h1, h2, _⟩ := (C76_buffers accessD_keyed inOrder_drains h).1
    (has_root (d := accessD) 1 rfl)
  obtain ⟨ty', h3, _⟩ := C76_value accessD_keyed inOrder_drains h (has_root (d := accessD) 3 rfl)
  exact ⟨s, h, ⟨ty, msg, hints, h1, h2⟩, ty', h3⟩

/-- A join of two buffers, one of them inside of a section, and a join into a JSON message. -/
def joinD : Diagram where
  start := .name 0
  ops := [(0, .forkClone [.name 20, .exposed 5 50, .name 21]), (20, .buffer false),
    (21, .buffer false), (1, .join (.name 2) [.name 20, .exposed 5 50] [0] false),
    (2, .node 7 3 .terminate []), (3, .join (.name 4) [.name 21] [] true),
    (4, .node 0 3 .dispose []), (5, .template 9 [])]
  templates := [(9, ⟨[(51, .buffer false)], [], [(50, .name 51)], []⟩)]
  onErr := none

theorem joinD_keyed : joinD.Keyed := by
  refine ⟨distinct_flat (by decide) rfl, ?_⟩
  intro n t hm
  simp only [joinD, List.mem_cons, Prod.mk.injEq, List.not_mem_nil, or_false] at hm
  obtain ⟨_, rfl⟩ := hm
  exact distinct_flat (by decide) rfl

example : ∃ s, create sampleReg ⟨3, 3, []⟩ inOrder 10000 joinD = .ok s ∧
    (∃ ty hints, sampleReg.join ty = some hints ∧ Holds s [] [.name 20, .exposed 5 50] hints) ∧
    (∃ o : Out, o.ty = json ∧ (o, Ref.named [] none 4) ∈ s.made) ∧
    joinD.ResolvesBuffer [] (.exposed 5 50) := by
  obtain ⟨s, h⟩ : ∃ s, create sampleReg ⟨3, 3, []⟩ inOrder 10000 joinD = .ok s :=
    of_isOk (by decide +kernel)
  have hat : joinD.Has [] 1 (.join (.name 2) [.name 20, .exposed 5 50] [0] false) := has_root 3 rfl
  obtain ⟨ty, tys, _, _, _, _, h1, _⟩ := C76_joins joinD_keyed inOrder_drains h hat
  obtain ⟨ty', tys', _, _, _, h2, _, o, h3, h4⟩ := C76_joins joinD_keyed inOrder_drains h
    (has_root (d := joinD) 5 rfl)
  obtain ⟨hints, h1⟩ := h1 rfl
  exact ⟨s, h, ⟨ty, hints, h1⟩, ⟨o, h3.trans (h2 rfl).1, h4⟩,
    C77_buffers_partial joinD_keyed inOrder_drains h (.inr (.inr ⟨_, _, hat⟩)) (by simp)⟩

/-! ### C77 -/

/-- A section whose only output is never used, and is connected to an operation that does not
exist. -/
def strayD : Diagram where
  start := .exposed 2 10
  ops := [(2, .template 100 [(11, .name 99)])]
  templates := [(100, ⟨[(20, .node 0 7 .terminate [])], [(10, .name 20)], [], [11]⟩)]
  onErr := none

theorem strayD_keyed : strayD.Keyed := by
  refine ⟨distinct_flat (by decide) rfl, ?_⟩
  intro n t hm
  simp only [strayD, List.mem_singleton, Prod.mk.injEq] at hm
  obtain ⟨_, rfl⟩ := hm
  exact distinct_flat (by decide) rfl

theorem strayD_built : ∃ s, create sampleReg ⟨0, 7, []⟩ inOrder 10000 strayD = .ok s :=
  of_isOk (by decide +kernel)

/-- C77, violated: an output of a section that nothing inside of it uses can be connected to an
operation that does not exist, without an error. -/
theorem C77_violated : ∃ (reg : Registry) (io : Io) (d : Diagram) (s : St), d.Keyed ∧
    create reg io inOrder 10000 d = .ok s ∧ ∃ ns id t con out n,
      d.Has ns id (.template t con) ∧ (out, n) ∈ con ∧ ¬ d.Resolves ns n := by
  obtain ⟨s, h⟩ := strayD_built
  refine ⟨_, _, strayD, s, strayD_keyed, h, [], 2, 100, [(11, .name 99)], 11, .name 99,
    has_root 0 rfl, by simp, ?_⟩
  rintro (⟨sch, h1, _⟩ | ⟨path, sec, _, _, _, h1, _⟩)
  · have key : ∀ ns id sch, At strayD.templates strayD.ops ns id sch → id ≠ 99 := by
      intro ns id sch h
      cases h with
      | root h => simp only [strayD, List.mem_singleton, Prod.mk.injEq] at h; rw [h.1]; decide
      | inTemplate _ h2 h3 =>
        have h2 := mem_of_lookup h2
        simp only [strayD, List.mem_singleton, Prod.mk.injEq] at h2
        obtain ⟨_, rfl⟩ := h2
        simp only [List.mem_singleton, Prod.mk.injEq] at h3
        rw [h3.1]
        decide
      | inScope h2 h3 =>
        exfalso
        have none : ∀ {ns id sch}, At strayD.templates strayD.ops ns id sch →
            ∀ a b c l, sch ≠ .scope a b c l := by
          intro ns id sch h
          induction h with
          | root h =>
            simp only [strayD, List.mem_singleton, Prod.mk.injEq] at h
            rw [h.2]
            simp
          | inTemplate _ h2 h3 =>
            have h2 := mem_of_lookup h2
            simp only [strayD, List.mem_singleton, Prod.mk.injEq] at h2
            obtain ⟨_, rfl⟩ := h2
            simp only [List.mem_singleton, Prod.mk.injEq] at h3
            rw [h3.2]
            simp
          | inScope _ _ ih => exact absurd rfl (ih _ _ _ _)
        exact none h2 _ _ _ _ rfl
    exact key _ _ _ h1 rfl
  · simp at h1

/-- The diagram of the examples above names what exists. -/
example : sampleD.Resolves [] (.exposed 2 10) ∧ sampleD.Resolves [2] (.name 11) := by
  obtain ⟨s, h⟩ := sampleD_built
  exact ⟨C77_operation_partial sampleD_keyed inOrder_drains h (has_root 0 rfl) (by simp [Schema.nexts]),
    C77_operation_partial sampleD_keyed inOrder_drains h
      (has_section (has_root 2 rfl) 0 rfl rfl) (by simp [Schema.nexts])⟩

example : sampleD.Resolves [3] (.name 30) ∧ sampleD.Resolves [] .terminate := by
  obtain ⟨s, h⟩ := sampleD_built
  exact C77_scope_partial sampleD_keyed inOrder_drains h (has_root 3 rfl)

example : ¬ MeetsUnknown sampleD.templates 100 ∧ ¬ MeetsCycle sampleD.templates 100 := by
  obtain ⟨s, h⟩ := sampleD_built
  exact C46_built sampleD_keyed inOrder_drains h (has_root 2 rfl)

example : ∃ b, b = Next.name 20 ∧ accessD.ResolvesBuffer [] b := by
  obtain ⟨s, h⟩ : ∃ s, create sampleReg ⟨4, 0, []⟩ inOrder 10000 accessD = .ok s :=
    of_isOk (by decide +kernel)
  exact ⟨_, rfl, C77_buffers_partial accessD_keyed inOrder_drains h
    (.inl (has_root (d := accessD) 1 rfl)) (by simp)⟩

/-- A section that contains itself is refused. -/
example : create sampleReg ⟨0, 7, []⟩ inOrder 10000
    ⟨.exposed 2 10, [(2, .template 7 [])], [(7, ⟨[(1, .template 7 [])], [], [], []⟩)], none⟩ =
      .error .circularTemplate := by
  have hc : MeetsCycle [(7, ⟨[(1, .template 7 [])], [], [], []⟩)] 7 :=
    ⟨7, 7, .refl, ⟨_, rfl, 1, [], List.mem_singleton.2 rfl⟩, .refl⟩
  rcases C46_create sampleReg ⟨0, 7, []⟩ inOrder 10000
    ⟨.exposed 2 10, [(2, .template 7 [])], [(7, ⟨[(1, .template 7 [])], [], [], []⟩)], none⟩
    (id := 2) (t := 7) (con := []) (by simp) (.inr hc) with ⟨b, h⟩ | h
  · exact of_errOf (by decide +kernel)
  · exact h

end Verif.Diagram
