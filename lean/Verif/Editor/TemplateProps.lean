import Verif.Editor.Props
import Verif.Editor.Template
/-
C126: a section template that is opened in the editor and saved again is the same.
C127: what is added to a template gets a name of its own.
-/
namespace Verif.Editor

/-! ### Specification -/

/-- What a name in a remapping stands for, `get_inner`, src/diagram/section_schema.rs:401-416. -/
def Remap.get : Remap → Name → Option Next
  | .forward l, n => if n ∈ l then some (.op n) else none
  | .remap l, n => (l.find? fun p => p.1 = n).map (·.2)

/-- Two templates are the same: the same names lead to the same places inside, they have the same
outputs, and the same operations with the same fields in the same scopes. -/
structure SameTemplate (t t' : Template) : Prop where
  inputs : ∀ n, t'.inputs.get n = t.inputs.get n
  buffers : ∀ n, t'.buffers.get n = t.buffers.get n
  outputs : t'.outputs = t.outputs
  ops : ∀ ns n, opAt t'.ops ns n = opAt t.ops ns n

/-- What is next to an operation of a template: the operations there, and at the root its outputs. -/
def Template.near (t : Template) (ns : List Name) (n : Name) : Option Op :=
  if ns = [] ∧ n ∈ t.outputs then some ⟨"", .streamOut⟩ else opAt t.ops ns n

/-- A remapping that the editor keeps: its names are different, and lead to operations or nowhere. -/
def RemapOk (near : Name → Option Op) : Remap → Prop
  | .forward l => ∀ n ∈ l, (near n).isSome
  | .remap l => (l.map (·.1)).Nodup ∧
      ∀ p ∈ l, p.2 = .dispose ∨ ∃ n, p.2 = .op n ∧ (near n).isSome

/-- The templates that the editor keeps. -/
structure TemplateEditable (reg : Registry) (t : Template) : Prop where
  uniq : t.ops.Uniq
  outputs : t.outputs.Nodup
  distinct : ∀ n ∈ t.outputs, opAt t.ops [] n = none
  scopes : ∀ ns n m, (opAt t.ops (ns ++ [n]) m).isSome →
    ∃ o, opAt t.ops ns n = some o ∧ o.body.kind = .scope
  bodies : ∀ ns n o, opAt t.ops ns n = some o →
    BodyOk reg (t.near ns) (t.near (ns ++ [n])) o.body
  no_end : ∀ n o, opAt t.ops [] n = some o → Next.terminate ∉ o.body.targets
  inputs : RemapOk (t.near []) t.inputs
  buffers : RemapOk (t.near []) t.buffers

/-- The full statement of C126. -/
def C126_full : Prop :=
  ∀ (reg : Registry) (t : Template), t.ops.Uniq → t.outputs.Nodup →
    (∀ n ∈ t.outputs, opAt t.ops [] n = none) → ∃ t', templateTrip reg t = some t' ∧ SameTemplate t t'

/-! ### The nodes of a template -/

theorem get_stand (outs : List Name) (k : Key) :
    (stand outs).get k = if k.ns = [] ∧ k.name ∈ outs then some ⟨"", .streamOut⟩ else none := by
  induction outs with
  | nil => simp [stand, Nodes.get]
  | cons n outs ih =>
    rw [show stand (n :: outs) = (⟨[], n⟩, ⟨"", .streamOut⟩) :: stand outs from rfl]
    simp only [Nodes.get]
    obtain ⟨ns, m⟩ := k
    by_cases h : (⟨[], n⟩ : Key) = ⟨ns, m⟩
    · rw [if_pos h]
      cases h
      simp
    · rw [if_neg h, ih]
      simp only [List.mem_cons]
      by_cases h1 : ns = []
      · subst h1
        have : m ≠ n := fun e => h (by rw [e])
        simp [this]
      · simp [h1]

theorem get_known {t : Template} (hu : t.ops.Uniq) (ns : List Name) (n : Name) :
    (known t.outputs (flatten [] t.ops)).get ⟨ns, n⟩ = t.near ns n := by
  rw [known, get_append, get_stand, get_flatten hu, Template.near]
  split <;> rfl

theorem known_nodup {t : Template} (hu : t.ops.Uniq) (ho : t.outputs.Nodup)
    (hd : ∀ n ∈ t.outputs, opAt t.ops [] n = none) :
    ((known t.outputs (flatten [] t.ops)).map (·.1)).Nodup := by
  rw [known, List.map_append, List.nodup_append]
  refine ⟨?_, flatten_nodup hu [], ?_⟩
  · simp only [stand, List.map_map]
    exact List.Pairwise.map _ (fun a b hab e => hab (by simpa using e)) ho
  · intro a ha b hb hab
    subst hab
    simp only [stand, List.map_map, List.mem_map, Function.comp] at ha
    obtain ⟨n, hn, rfl⟩ := ha
    obtain ⟨⟨k, o⟩, hm, e⟩ := List.mem_map.1 hb
    simp only at e
    subst e
    have := get_of_mem (flatten_nodup hu []) hm
    rw [get_flatten hu] at this
    rw [hd n hn] at this
    cases this

theorem known_hasEnd {reg : Registry} {t : Template} (h : TemplateEditable reg t) {ns : List Name}
    {n : Name} (hn : (opAt t.ops ns n).isSome) :
    (known t.outputs (flatten [] t.ops)).hasEnd ns = true := by
  rcases List.eq_nil_or_concat ns with rfl | ⟨r, s, rfl⟩
  · simp [Nodes.hasEnd]
  · rw [List.concat_eq_append] at hn ⊢
    obtain ⟨so, h1, h2⟩ := h.scopes r s n hn
    simp only [Nodes.hasEnd, Bool.or_eq_true, List.any_eq_true]
    refine .inr ⟨(⟨r, s⟩, so), ?_, by simp [Key.inside, h2]⟩
    exact List.mem_append_right _ ((mem_flatten h.uniq [] _ _).2 ⟨r, rfl, h1⟩)

theorem piece_known {reg : Registry} {t : Template} (h : TemplateEditable reg t) {k : Key} {o : Op}
    (hm : (k, o) ∈ known t.outputs (flatten [] t.ops)) :
    Piece (known t.outputs (flatten [] t.ops)).kind
      (validEdge reg (known t.outputs (flatten [] t.ops))) k
      (opEdges (known t.outputs (flatten [] t.ops)) k o.body) o.body.clear o.body := by
  rcases List.mem_append.1 hm with hs | hf
  · simp only [stand, List.mem_map, Prod.mk.injEq] at hs
    obtain ⟨n, _, rfl, rfl⟩ := hs
    exact Piece.empty _
  · have hg := get_of_mem (known_nodup h.uniq h.outputs h.distinct) hm
    have ho := get_of_mem (flatten_nodup h.uniq []) hf
    rw [get_flatten h.uniq] at ho
    refine piece_op (known_hasEnd h (n := k.name) (by rw [ho]; rfl)) hg ?_
    have e1 : (fun n => (known t.outputs (flatten [] t.ops)).get ⟨k.ns, n⟩) = t.near k.ns :=
      funext fun n => get_known h.uniq _ _
    have e2 : (fun n => (known t.outputs (flatten [] t.ops)).get ⟨k.inside, n⟩) =
        t.near (k.ns ++ [k.name]) := funext fun n => get_known h.uniq _ _
    rw [e1, e2]
    exact h.bodies _ _ _ ho

/-! ### Inputs and buffers -/

/-- A pin that the editor keeps. -/
def PinOk (N : Nodes) (p : Pin) : Prop :=
  p.target = .dispose ∨ ∃ n, p.target = .op n ∧ (N.get ⟨[], n⟩).isSome

theorem remap_pins {t : Template} (hu : t.ops.Uniq) {r : Remap} (h : RemapOk (t.near []) r) :
    ∀ p ∈ r.pins, PinOk (known t.outputs (flatten [] t.ops)) p := by
  intro p hp
  cases r with
  | forward l =>
    simp only [Remap.pins, List.mem_map] at hp
    obtain ⟨n, hn, rfl⟩ := hp
    exact .inr ⟨n, rfl, by rw [get_known hu]; exact h n hn⟩
  | remap l =>
    simp only [Remap.pins, List.mem_map] at hp
    obtain ⟨q, hq, rfl⟩ := hp
    rcases h.2 q hq with e | ⟨n, e, hn⟩
    · exact .inl e
    · exact .inr ⟨n, e, by rw [get_known hu]; exact hn⟩

theorem syncPins_append (kinds : Key → Option Kind) (pins : Side → List Pin) (a b : List PinEdge) :
    syncPins kinds pins (a ++ b) = (syncPins kinds pins a).bind fun p => syncPins kinds p b := by
  induction a generalizing pins with
  | nil => rfl
  | cons e a ih =>
    simp only [List.cons_append, syncPins]
    cases syncPin kinds pins e with
    | none => rfl
    | some p => simp only [Option.bind_some]; exact ih p

theorem modify_middle {α : Type} (a : List α) (x : α) (b : List α) (f : α → α) :
    (a ++ x :: b).modify a.length f = a ++ f x :: b := by
  induction a with
  | nil => rfl
  | cons y a ih => simp [List.modify_succ_cons, ih]

/-- The edges of a side restore its pins. -/
theorem pins_restored {N : Nodes} (s : Side) (ps done : List Pin) (hp : ∀ p ∈ ps, PinOk N p)
    (st : Side → List Pin) (hst : st s = done ++ clearPins ps) :
    ∃ es st', loadPins N s done.length ps = some es ∧ syncPins N.kind st es = some st' ∧
      st' s = done ++ ps ∧ ∀ s', s' ≠ s → st' s' = st s' := by
  induction ps generalizing done st with
  | nil => exact ⟨[], st, rfl, rfl, by simpa [clearPins] using hst, fun _ _ => rfl⟩
  | cons p ps ih =>
    rw [show clearPins (p :: ps) = { p with target := .dispose } :: clearPins ps from rfl] at hst
    have hrest := fun q hq => hp q (List.mem_cons_of_mem _ hq)
    obtain ⟨name, target⟩ := p
    rcases hp _ (List.mem_cons_self ..) with e | ⟨n, e, hn⟩
    · simp only at e
      subst e
      obtain ⟨es, st', h1, h2, h3, h4⟩ := ih (done ++ [⟨name, .dispose⟩]) hrest st
        (by rw [hst]; simp)
      refine ⟨es, st', ?_, h2, by rw [h3]; simp, h4⟩
      simp only [List.length_append, List.length_singleton] at h1
      simp only [loadPins, loadPin, Nodes.fromNext, h1, Option.map_some, List.nil_append]
    · simp only at e
      subst e
      let st1 : Side → List Pin := fun s' =>
        if s' = s then (st s').modify done.length (fun p => { p with target := .op n }) else st s'
      have hst1 : st1 s = (done ++ [⟨name, .op n⟩]) ++ clearPins ps := by
        simp only [st1, if_true, hst]
        rw [modify_middle]
        simp
      obtain ⟨es, st', h1, h2, h3, h4⟩ := ih (done ++ [⟨name, .op n⟩]) hrest st1 hst1
      refine ⟨⟨s, done.length, .op ⟨[], n⟩, none, false⟩ :: es, st', ?_, ?_, by rw [h3]; simp, ?_⟩
      · simp only [List.length_append, List.length_singleton] at h1
        simp only [loadPins, loadPin, Nodes.fromNext, hn, if_true, h1, Option.map_some,
          List.singleton_append]
      · have : (N.kind ⟨[], n⟩).isSome := by simp [Nodes.kind, hn]
        simp only [syncPins, syncPin, Bool.false_eq_true, if_false, targetNext, this, if_true,
          Option.map_some, Option.bind_some]
        exact h2
      · intro s' hs'
        rw [h4 s' hs']
        simp [st1, hs']

theorem find_setKey (l : List (Name × Next)) (k : Name) (v : Next) (n : Name) :
    ((setKey l k v).find? fun p => p.1 = n).map (·.2) =
      if k = n then some v else (l.find? fun p => p.1 = n).map (·.2) := by
  induction l with
  | nil => by_cases h : k = n <;> simp [setKey, h]
  | cons q l ih =>
    obtain ⟨k', v'⟩ := q
    unfold setKey
    by_cases hk : k' = k
    · subst hk
      rw [if_pos rfl]
      by_cases h : k' = n
      · simp [h]
      · simp [h]
    · rw [if_neg hk]
      by_cases h' : k' = n
      · have : ¬ k = n := fun e => hk (h'.trans e.symm)
        simp [h', this]
      · simp only [List.find?_cons, h', decide_false]
        exact ih

/-- What a name stands for in the map of some pins: the target of the last of that name. -/
theorem get_toMap (ps : List Pin) (n : Name) :
    (Remap.remap (toMap ps)).get n = ((ps.filter fun p => p.name = n).getLast?).map (·.target) := by
  have key : ∀ (ps : List Pin) (l : List (Name × Next)),
      ((ps.foldl (fun l p => setKey l p.name p.target) l).find? fun p => p.1 = n).map (·.2) =
        (((ps.filter fun p => p.name = n).getLast?).map (·.target)).or
          ((l.find? fun p => p.1 = n).map (·.2)) := by
    intro ps
    induction ps with
    | nil => intro l; simp
    | cons p ps ih =>
      intro l
      rw [List.foldl_cons, ih, find_setKey]
      by_cases h : p.name = n
      · simp only [h, if_true, List.filter_cons, decide_true, List.getLast?_cons]
        cases (ps.filter fun p => p.name = n).getLast? <;> rfl
      · simp [h]
  simpa [Remap.get, toMap] using key ps []

/-- Saving the pins of a remapping keeps what its names stand for. -/
theorem get_pins {near : Name → Option Op} {r : Remap} (h : RemapOk near r) (n : Name) :
    (Remap.remap (toMap r.pins)).get n = r.get n := by
  rw [get_toMap]
  cases r with
  | forward l =>
    simp only [Remap.pins, Remap.get]
    have : ((l.map fun n => (⟨n, .op n⟩ : Pin)).filter fun p => p.name = n) =
        (l.filter fun m => m = n).map fun n => ⟨n, .op n⟩ := by
      rw [List.filter_map]; rfl
    rw [this]
    by_cases hn : n ∈ l
    · rw [if_pos hn]
      have hne : (l.filter fun m => m = n) ≠ [] := by
        intro e
        have := List.filter_eq_nil_iff.1 e n hn
        simp at this
      rw [List.getLast?_map, List.getLast?_eq_some_getLast hne]
      have := List.getLast_mem hne
      rw [List.mem_filter] at this
      have e := of_decide_eq_true this.2
      simp only [Option.map_some, e]
    · rw [if_neg hn]
      have : (l.filter fun m => m = n) = [] := by
        rw [List.filter_eq_nil_iff]
        intro a ha e
        exact hn (of_decide_eq_true e ▸ ha)
      rw [this]
      rfl
  | remap l =>
    have hnd := h.1
    simp only [Remap.pins, Remap.get]
    clear h
    induction l with
    | nil => rfl
    | cons q l ih =>
      obtain ⟨k, v⟩ := q
      rw [List.map_cons, List.nodup_cons] at hnd
      simp only [List.map_cons, List.filter_cons, List.find?_cons]
      by_cases hk : k = n
      · subst hk
        have : ((l.map fun (x : Name × Next) => (⟨x.1, x.2⟩ : Pin)).filter fun p => p.name = k) =
            [] := by
          rw [List.filter_eq_nil_iff]
          intro p hp
          obtain ⟨q, hq, rfl⟩ := List.mem_map.1 hp
          simp only [decide_eq_true_eq]
          intro e
          exact hnd.1 (List.mem_map.2 ⟨q, hq, e⟩)
        simp [this]
      · simp only [hk, decide_false, Bool.false_eq_true, if_false]
        exact ih hnd.2

/-! ### C126 -/

/-- **C126** For every registry and every template that is `TemplateEditable`: it can be opened in the
editor and saved, and what is saved is the same as what was opened.

Missing from the full claim are the templates that are not `TemplateEditable`; the theorems
`C126_…_violated` show what becomes of some of them. -/
theorem C126_round_trip_partial (reg : Registry) (t : Template) (h : TemplateEditable reg t) :
    ∃ t', templateTrip reg t = some t' ∧ SameTemplate t t' := by
  have hn := known_nodup h.uniq h.outputs h.distinct
  have hf := flatten_nodup h.uniq []
  let F := flatten [] t.ops
  let N := known t.outputs F
  let C : Nodes := N.map fun (k, o) => (k, { o with body := o.body.clear })
  obtain ⟨es, d1, h1, h2, h3, _, h5, h6, h7⟩ := sync_nodes (fun k o hm => piece_known h hm) N
    (fun _ h => h) hn ⟨.dispose, C⟩ (fun k o hm => by
      have := get_map_body N Body.clear k
      rw [get_of_mem hn hm] at this
      exact this)
  have hnodes : d1.nodes = N := by
    refine nodes_ext hn ?_ ?_
    · rw [h5]
      show (N.map fun (k, o) => (k, { o with body := o.body.clear })).map (·.1) = _
      rw [List.map_map]
      rfl
    · intro k hk
      obtain ⟨⟨k', o⟩, hm, e⟩ := List.mem_map.1 hk
      simp only at e
      subst e
      rw [h6 _ _ hm]
      exact (get_of_mem hn hm).symm
  have hdrop : N.drop t.outputs.length = F := by
    show (stand t.outputs ++ F).drop _ = _
    rw [List.drop_append, show t.outputs.length = (stand t.outputs).length by simp [stand]]
    simp
  have hperm := sortByDepth_perm F
  have hn' : ((sortByDepth F).map (·.1)).Nodup := (hperm.map _).nodup_iff.2 hf
  have hin : ∀ (rest : List Name) (r : List Name) (s n : Name),
      (opAt t.ops (r ++ s :: rest) n).isSome →
      ∃ so, opAt t.ops r s = some so ∧ so.body.kind = .scope := by
    intro rest
    induction rest with
    | nil => intro r s n hn; exact h.scopes r s n hn
    | cons x rest ih =>
      intro r s n hn
      obtain ⟨so, h1, _⟩ := ih (r ++ [s]) x n (by simpa using hn)
      exact h.scopes r s x (by rw [h1]; rfl)
  obtain ⟨f, h8, h9⟩ := build_ok hn' (sortByDepth_sorted F) (by
    intro k o hm r s rest hk
    obtain ⟨r', e1, e2⟩ := (mem_flatten h.uniq [] k o).1 (hperm.mem_iff.1 hm)
    rw [List.nil_append] at e1
    subst e1
    rw [hk] at e2
    obtain ⟨so, e3, e4⟩ := hin rest r s k.name (by rw [e2]; rfl)
    exact ⟨so, hperm.mem_iff.2 ((mem_flatten h.uniq [] _ _).2 ⟨r, rfl, e3⟩), e4⟩)
  let P : Side → List Pin := fun s => if s = .input then t.inputs.pins else t.buffers.pins
  obtain ⟨is, s1, i1, i2, i3, i4⟩ := pins_restored (N := N) .input t.inputs.pins []
    (remap_pins h.uniq h.inputs) (fun s => clearPins (P s)) rfl
  obtain ⟨bs, s2, b1, b2, b3, b4⟩ := pins_restored (N := N) .buffer t.buffers.pins []
    (remap_pins h.uniq h.buffers) s1 (by rw [i4 _ (by decide)]; rfl)
  have hend : ¬ (F.any fun (k, o) => k.ns == [] && o.body.targets.contains .terminate) = true := by
    rw [List.any_eq_true]
    rintro ⟨⟨k, o⟩, hm, e⟩
    simp only [Bool.and_eq_true, beq_iff_eq, List.contains_iff_mem] at e
    have := get_of_mem hf hm
    rw [get_flatten h.uniq, e.1] at this
    exact h.no_end _ _ this e.2
  refine ⟨⟨.remap (toMap t.inputs.pins), .remap (toMap t.buffers.pins), t.outputs, f⟩, ?_,
    get_pins h.inputs, get_pins h.buffers, rfl, ?_⟩
  · have hl : loadTemplate t = some ⟨F, t.outputs, P, es, is ++ bs⟩ := by
      simp only [loadTemplate]
      rw [if_neg hend]
      show (match gather (fun (k, o) => opEdges N k o.body) N, loadPins N .input 0 _,
        loadPins N .buffer 0 _ with | some es, some is, some bs => _ | _, _, _ => _) = _
      simp only [List.length_nil] at i1 b1
      rw [h1, i1, b1]
    rw [templateTrip, hl]
    simp only [Option.bind_some, exportTemplate]
    show (match syncAll N.kind ⟨.dispose, C⟩ (es.filter (validEdge reg N)),
      syncPins N.kind _ _ with | some d, some pins => _ | _, _ => _) = _
    rw [h2, h3, syncPins_append, i2]
    simp only [Option.bind_some]
    rw [b2]
    simp only [hnodes, hdrop, h8, Option.map_some]
    rw [b4 _ (by decide), i3, b3]
    rfl
  · intro ns n
    show opAt f ns n = _
    rw [h9, ← get_flatten h.uniq ⟨ns, n⟩]
    apply Option.ext
    intro o
    rw [get_eq_iff hn', get_eq_iff hf]
    exact hperm.mem_iff

end Verif.Editor
