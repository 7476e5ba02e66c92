import Verif.Editor.TemplateProps
/-
C127: what is added to a template gets a name of its own, and nothing else is changed. What becomes of
edges that are drawn from inputs and buffers. Templates that the editor does not keep.
-/
namespace Verif.Editor

/-! ### Names -/

theorem repr_inj' {m n : Nat} (h : Nat.repr m = Nat.repr n) : m = n := by
  have e := congrArg String.toList h
  rw [Nat.toList_repr, Nat.toList_repr] at e
  have := congrArg (fun l => Nat.ofDigitChars 10 l 0) e
  simpa using this

theorem numbered_inj {pre sep : String} {m n : Nat}
    (h : pre ++ sep ++ Nat.repr m = pre ++ sep ++ Nat.repr n) : m = n := by
  apply repr_inj'
  have e := congrArg String.toList h
  simp only [String.toList_append, List.append_assoc, List.append_cancel_left_eq] at e
  exact String.toList_injective e

theorem numbered_ne {pre sep : String} {m : Nat} : pre ++ sep ++ Nat.repr m ≠ pre := by
  intro h
  have e := congrArg (fun s : String => s.toList.length) h
  simp only [String.toList_append, List.length_append] at e
  have h1 : 0 < (Nat.repr m).toList.length := by
    rw [String.length_toList]
    exact Nat.length_repr_pos
  omega

theorem tryNumbers_spec (pre sep : String) (ex : List String) (n i : Nat) :
    match tryNumbers pre sep ex n i with
    | some c => c ∉ ex ∧ ∃ j, c = pre ++ sep ++ Nat.repr j
    | none => ∀ j, i ≤ j → j < i + n → pre ++ sep ++ Nat.repr j ∈ ex := by
  induction n generalizing i with
  | zero => intro j h1 h2; omega
  | succ n ih =>
    simp only [tryNumbers]
    by_cases h : ex.contains (pre ++ sep ++ Nat.repr i) = true
    · rw [if_pos h]
      have := ih (i + 1)
      cases ht : tryNumbers pre sep ex n (i + 1) with
      | some c => rw [ht] at this; exact this
      | none =>
        rw [ht] at this
        intro j h1 h2
        by_cases e : j = i
        · subst e; simpa using h
        · exact this j (by omega) (by omega)
    · rw [if_neg h]
      exact ⟨by simpa using h, i, rfl⟩

/-- **C127** The name that is made for something new is not among those that exist. It is the name
that was wished for if this is free, and otherwise that name with a number. -/
theorem C127_unique (pre sep : String) (existing : List String) :
    addUniqueSuffix pre existing sep ∉ existing ∧
    (pre ∉ existing → addUniqueSuffix pre existing sep = pre) ∧
    (pre ∈ existing → ∃ i, addUniqueSuffix pre existing sep = pre ++ sep ++ Nat.repr i) := by
  unfold addUniqueSuffix
  by_cases hp : pre ∈ existing
  · rw [if_pos (by simpa using hp)]
    have ht := tryNumbers_spec pre sep existing (existing.length - 1) 1
    cases hc : tryNumbers pre sep existing (existing.length - 1) 1 with
    | some c =>
      rw [hc] at ht
      exact ⟨ht.1, fun h => absurd hp h, fun _ => ht.2⟩
    | none =>
      rw [hc] at ht
      refine ⟨fun hm => ?_, fun h => absurd hp h, fun _ => ⟨_, rfl⟩⟩
      have hlen : 0 < existing.length := List.length_pos_of_mem hp
      let all := pre :: ((existing.length + 1) :: List.range' 1 (existing.length - 1)).map
        fun i => pre ++ sep ++ Nat.repr i
      have hnd : all.Nodup := by
        refine List.nodup_cons.2 ⟨?_, ?_⟩
        · intro h
          obtain ⟨i, _, e⟩ := List.mem_map.1 h
          exact numbered_ne e
        · refine List.Pairwise.map _ (R := (· ≠ ·)) (fun a b hab e => hab (numbered_inj e)) ?_
          refine List.nodup_cons.2 ⟨?_, List.nodup_range'⟩
          intro h
          rw [List.mem_range'_1] at h
          omega
      have hsub : all ⊆ existing := by
        intro x hx
        rcases List.mem_cons.1 hx with rfl | hx
        · exact hp
        · obtain ⟨i, hi, rfl⟩ := List.mem_map.1 hx
          rcases List.mem_cons.1 hi with rfl | hi
          · exact hm
          · rw [List.mem_range'_1] at hi
            exact ht i hi.1 hi.2
      have := hnd.length_le_of_subset hsub
      simp only [all, List.length_cons, List.length_map, List.length_range'] at this
      omega
  · rw [if_neg (by simpa using hp)]
    exact ⟨hp, fun _ => rfl, fun h => absurd h hp⟩

/-! ### Adding an input or a buffer -/

/-- The edges of inputs and buffers come from nodes that are there. -/
def TGraph.Sound (g : TGraph) : Prop := ∀ e ∈ g.pinEdges, e.at_ < (g.pins e.side).length

/-- The entries of a template on a side. -/
def Template.side (t : Template) : Side → Remap
  | .input => t.inputs
  | .buffer => t.buffers

theorem syncPin_names {kinds : Key → Option Kind} {st st' : Side → List Pin} {e : PinEdge}
    (h : syncPin kinds st e = some st') (s : Side) :
    (st' s).map (·.name) = (st s).map (·.name) := by
  unfold syncPin at h
  split at h
  · cases h
  · rw [Option.map_eq_some_iff] at h
    obtain ⟨t, _, rfl⟩ := h
    simp only
    split
    · apply List.ext_getElem?
      intro i
      simp only [List.getElem?_map, List.getElem?_modify]
      cases (st s)[i]? with
      | none => rfl
      | some p => simp only [Option.map_some]; split <;> rfl
    · rfl

theorem syncPins_names {kinds : Key → Option Kind} {st st' : Side → List Pin} {es : List PinEdge}
    (h : syncPins kinds st es = some st') (s : Side) :
    (st' s).map (·.name) = (st s).map (·.name) := by
  induction es generalizing st with
  | nil => cases h; rfl
  | cons e es ih =>
    simp only [syncPins] at h
    cases hs : syncPin kinds st e with
    | none => rw [hs] at h; cases h
    | some m =>
      rw [hs] at h
      rw [ih h, syncPin_names hs]

theorem modify_left {α : Type} (a b : List α) (i : Nat) (f : α → α) (h : i < a.length) :
    (a ++ b).modify i f = a.modify i f ++ b := by
  induction a generalizing i with
  | nil => simp at h
  | cons x a ih =>
    cases i with
    | zero => rfl
    | succ i =>
      simp only [List.cons_append, List.modify_succ_cons]
      rw [ih i (by simpa using h)]

/-- With another pin at the end. -/
def more (st : Side → List Pin) (s : Side) (p : Pin) : Side → List Pin :=
  fun s' => if s' = s then st s ++ [p] else st s'

theorem syncPins_more (kinds : Key → Option Kind) (s : Side) (p : Pin) (es : List PinEdge)
    (st : Side → List Pin) (h : ∀ e ∈ es, e.at_ < (st e.side).length) :
    syncPins kinds (more st s p) es = (syncPins kinds st es).map fun st' => more st' s p := by
  induction es generalizing st with
  | nil => rfl
  | cons e es ih =>
    have he := h e (List.mem_cons_self ..)
    have hone : syncPin kinds (more st s p) e = (syncPin kinds st e).map fun st' => more st' s p := by
      unfold syncPin
      split
      · rfl
      · cases targetNext kinds ⟨.start none, e.target, .default, e.slot⟩ with
        | none => rfl
        | some t =>
          simp only [Option.map_some, Option.some.injEq]
          funext s'
          unfold more
          by_cases h1 : s' = s
          · subst h1
            by_cases h2 : s' = e.side
            · rw [← h2] at he
              simp only [h2, if_true]
              rw [← h2]
              exact modify_left _ _ _ _ he
            · simp [h2]
          · simp [h1]
    simp only [syncPins, hone]
    cases hs : syncPin kinds st e with
    | none => rfl
    | some m =>
      simp only [Option.map_some, Option.bind_some]
      refine ih m fun e' he' => ?_
      have := h e' (List.mem_cons_of_mem _ he')
      have hl := congrArg List.length (syncPin_names hs e'.side)
      simp only [List.length_map] at hl
      omega

theorem export_parts {reg : Registry} {g : TGraph} {t : Template}
    (h : exportTemplate reg g = some t) :
    ∃ d pins f, syncAll (known g.outputs g.nodes).kind
        ⟨.dispose, (known g.outputs g.nodes).map fun (k, o) => (k, { o with body := o.body.clear })⟩
        (g.edges.filter (validEdge reg (known g.outputs g.nodes))) = some d ∧
      syncPins (known g.outputs g.nodes).kind (fun s => clearPins (g.pins s)) g.pinEdges = some pins ∧
      build .nil (sortByDepth (d.nodes.drop g.outputs.length)) = some f ∧
      t = ⟨.remap (toMap (pins .input)), .remap (toMap (pins .buffer)), g.outputs, f⟩ := by
  simp only [exportTemplate] at h
  split at h
  · rename_i d pins h1 h2
    rw [Option.map_eq_some_iff] at h
    obtain ⟨f, h3, rfl⟩ := h
    exact ⟨d, pins, f, h1, h2, h3, rfl⟩
  · cases h

theorem loadPins_at {N : Nodes} {s : Side} {ps : List Pin} {i : Nat} {es : List PinEdge}
    (h : loadPins N s i ps = some es) : ∀ e ∈ es, e.side = s ∧ e.at_ < i + ps.length := by
  induction ps generalizing i es with
  | nil => simp only [loadPins, Option.some.injEq] at h; subst h; intro e he; cases he
  | cons p ps ih =>
    simp only [loadPins] at h
    cases h1 : loadPin N s i p with
    | none => rw [h1] at h; cases h
    | some xs =>
      rw [h1, Option.map_eq_some_iff] at h
      obtain ⟨ys, h2, rfl⟩ := h
      intro e he
      rcases List.mem_append.1 he with he | he
      · have : e = ⟨s, i, e.target, none, false⟩ := by
          unfold loadPin at h1
          split at h1
          · cases h1
          · split at h1
            · cases h1
            · cases h1; cases he
            · cases h1
              rw [List.mem_singleton] at he
              rw [he]
        rw [this]
        exact ⟨rfl, by simp⟩
      · have := ih h2 e he
        simp only [List.length_cons]
        exact ⟨this.1, by omega⟩

/-- The graphs of templates are sound, and stay so. -/
theorem C127_sound : (∀ t g, loadTemplate t = some g → g.Sound) ∧
    (∀ (g : TGraph) s, g.Sound → (g.addPin s).Sound) ∧
    (∀ (g : TGraph) s i k, g.Sound → (g.connectPin s i k).Sound) := by
  refine ⟨?_, ?_, ?_⟩
  · intro t g h
    simp only [loadTemplate] at h
    split at h
    · cases h
    · split at h
      · rename_i es is bs h1 h2 h3
        cases h
        intro e he
        rcases List.mem_append.1 he with he | he
        · have := loadPins_at h2 e he
          simp only [this.1, if_true]
          omega
        · have := loadPins_at h3 e he
          simp only [this.1, show ¬ Side.buffer = Side.input by decide, if_false]
          omega
      · cases h
  · intro g s hg e he
    have := hg e he
    simp only [TGraph.addPin]
    split
    · rename_i h1
      rw [h1] at this
      rw [List.length_append]
      omega
    · exact this
  · intro g s i k hg e he
    unfold TGraph.connectPin at he ⊢
    split at he
    · exact hg e he
    · split at he
      · rename_i o hk hc
        rw [if_pos hc]
        rcases List.mem_append.1 he with he | he
        · exact hg e he
        · rw [List.mem_singleton] at he
          subst he
          simp only [Bool.and_eq_true, decide_eq_true_eq] at hc
          exact hc.1.2
      · rename_i o hk hc
        rw [if_neg hc]
        exact hg e he

/-- **C127** Adding an input or a buffer to a template adds an entry of a new name that leads nowhere,
and changes nothing else of what is saved. -/
theorem C127_add_pin (reg : Registry) (g : TGraph) (s : Side) (t : Template) (hg : g.Sound)
    (h : exportTemplate reg g = some t) :
    ∃ t' n, exportTemplate reg (g.addPin s) = some t' ∧ (t.side s).get n = none ∧
      (t'.side s).get n = some .dispose ∧ (∀ m, m ≠ n → (t'.side s).get m = (t.side s).get m) ∧
      (∀ s', s' ≠ s → t'.side s' = t.side s') ∧ t'.outputs = t.outputs ∧ t'.ops = t.ops := by
  obtain ⟨d, pins, f, h1, h2, h3, rfl⟩ := export_parts h
  let n := addUniqueSuffix s.prefix_ ((g.pins s).map (·.name)) "_"
  have hnew : n ∉ (g.pins s).map (·.name) := (C127_unique s.prefix_ "_" _).1
  have hpins : (fun s' => clearPins ((g.addPin s).pins s')) =
      more (fun s => clearPins (g.pins s)) s ⟨n, .dispose⟩ := by
    funext s'
    simp only [TGraph.addPin, more]
    split
    · simp [clearPins, n]
    · rfl
  have h2' := syncPins_more (known g.outputs g.nodes).kind s ⟨n, .dispose⟩ g.pinEdges
    (fun s => clearPins (g.pins s)) (fun e he => by simpa [clearPins] using hg e he)
  rw [h2] at h2'
  have hnames : (pins s).map (·.name) = (g.pins s).map (·.name) := by
    rw [syncPins_names h2]
    simp [clearPins]
  have hside : ∀ (P : Side → List Pin) (f : Forest) (s : Side),
      (Template.side ⟨.remap (toMap (P .input)), .remap (toMap (P .buffer)), g.outputs, f⟩ s) =
        .remap (toMap (P s)) := by
    intro P f s; cases s <;> rfl
  have hempty : ((pins s).filter fun p => p.name = n) = [] := by
    rw [List.filter_eq_nil_iff]
    intro p hp e
    apply hnew
    rw [← hnames]
    exact List.mem_map.2 ⟨p, hp, of_decide_eq_true e⟩
  refine ⟨⟨.remap (toMap (more pins s ⟨n, .dispose⟩ .input)),
    .remap (toMap (more pins s ⟨n, .dispose⟩ .buffer)), g.outputs, f⟩, n, ?_, ?_, ?_, ?_, ?_, rfl, rfl⟩
  · simp only [exportTemplate, show (g.addPin s).outputs = g.outputs from rfl,
      show (g.addPin s).nodes = g.nodes from rfl, show (g.addPin s).edges = g.edges from rfl,
      show (g.addPin s).pinEdges = g.pinEdges from rfl, h1]
    rw [hpins, h2']
    simp only [Option.map_some, h3]
  · rw [hside, get_toMap, hempty]; rfl
  · rw [hside, get_toMap]
    simp [more, hempty]
  · intro m hm
    rw [hside, hside, get_toMap, get_toMap]
    have : ¬ n = m := fun e => hm e.symm
    simp [more, this]
  · intro s' hs'
    rw [hside, hside]
    simp [more, hs']

/-- **C127** A new output has a name of its own among the outputs. -/
theorem C127_add_output (g : TGraph) (h : g.outputs.Nodup) :
    g.addOutput.outputs.Nodup ∧ ∃ n, n ∉ g.outputs ∧ g.addOutput.outputs = g.outputs ++ [n] := by
  have hu := (C127_unique "new_output" "_" g.outputs).1
  refine ⟨?_, _, hu, rfl⟩
  show (g.outputs ++ [_]).Nodup
  rw [List.nodup_append]
  refine ⟨h, List.nodup_cons.2 ⟨List.not_mem_nil, .nil⟩, ?_⟩
  intro a ha b hb hab
  rw [List.mem_singleton] at hb
  subst hab
  subst hb
  exact hu ha

/-! ### Drawing from an input or a buffer -/

theorem find_modify (ps : List Pin) (i : Nat) (p : Pin) (hi : ps[i]? = some p)
    (hn : (ps.map (·.name)).Nodup) (t : Next) (n : Name) :
    (((ps.modify i fun p => { p with target := t }).filter fun p => p.name = n).getLast?).map
        (·.target) =
      if n = p.name then some t else ((ps.filter fun p => p.name = n).getLast?).map (·.target) := by
  induction ps generalizing i with
  | nil => simp at hi
  | cons q ps ih =>
    rw [List.map_cons, List.nodup_cons] at hn
    cases i with
    | zero =>
      simp only [List.getElem?_cons_zero, Option.some.injEq] at hi
      subst hi
      rw [List.modify_zero_cons]
      simp only [List.filter_cons]
      by_cases e : n = q.name
      · subst e
        have : (ps.filter fun p => p.name = q.name) = [] := by
          rw [List.filter_eq_nil_iff]
          intro p hp e
          exact hn.1 (List.mem_map.2 ⟨p, hp, of_decide_eq_true e⟩)
        simp [this]
      · have e' : ¬ q.name = n := fun x => e x.symm
        simp [e, e']
    | succ i =>
      rw [List.getElem?_cons_succ] at hi
      rw [List.modify_succ_cons]
      simp only [List.filter_cons]
      have hrec := ih i hi hn.2
      by_cases e : q.name = n
      · have hne : ¬ n = p.name := by
          intro x
          exact hn.1 (List.mem_map.2 ⟨p, List.mem_of_getElem? hi, by rw [e, ← x]⟩)
        rw [if_neg hne] at hrec ⊢
        simp only [e, decide_true, if_true, List.getLast?_cons]
        have key : ∀ a b : Option Pin, a.map (·.target) = b.map (·.target) →
            (some (a.getD q)).map (·.target) = (some (b.getD q)).map (·.target) := by
          intro a b h
          cases a <;> cases b <;> simp_all
        exact key _ _ hrec
      · simp only [e, decide_false, Bool.false_eq_true, if_false]
        exact hrec

/-- **C126** An input that is connected to an operation leads there in the saved template, and nothing
else is changed. -/
theorem C126_connect_input (reg : Registry) (g : TGraph) (i : Nat) (p : Pin) (k : Key) (t : Template)
    (hi : (g.pins .input)[i]? = some p) (hn : ((g.pins .input).map (·.name)).Nodup)
    (h : exportTemplate reg g = some t)
    (hc : (g.connectPin .input i k).pinEdges ≠ g.pinEdges) :
    ∃ t', exportTemplate reg (g.connectPin .input i k) = some t' ∧
      (∀ n, t'.inputs.get n = if n = p.name then some (.op k.name) else t.inputs.get n) ∧
      t'.buffers = t.buffers ∧ t'.outputs = t.outputs ∧ t'.ops = t.ops := by
  obtain ⟨d, pins, f, h1, h2, h3, rfl⟩ := export_parts h
  have hg : g.connectPin .input i k =
      { g with pinEdges := g.pinEdges ++ [⟨.input, i, .op k, none, false⟩] } ∧
      (g.nodes.get k).isSome := by
    unfold TGraph.connectPin at hc ⊢
    cases hk : g.nodes.get k with
    | none => rw [hk] at hc; exact absurd rfl hc
    | some o =>
      rw [hk] at hc
      simp only at hc ⊢
      by_cases hcond : (Side.input.reaches o.body.kind && decide (i < (g.pins .input).length) &&
        !g.pinEdges.any (fun e => e.side == .input && e.at_ == i)) = true
      · rw [if_pos hcond]
        exact ⟨rfl, rfl⟩
      · rw [if_neg hcond] at hc
        exact absurd rfl hc
  obtain ⟨hg, hk⟩ := hg
  have hkind : ((known g.outputs g.nodes).kind k).isSome := by
    simp only [Nodes.kind, Option.isSome_map, known, get_append]
    cases (stand g.outputs).get k with
    | some o => rfl
    | none => exact hk
  let pins' : Side → List Pin := fun s =>
    if s = .input then (pins s).modify i fun p => { p with target := .op k.name } else pins s
  have h2' : syncPins (known g.outputs g.nodes).kind (fun s => clearPins (g.pins s))
      (g.pinEdges ++ [⟨.input, i, .op k, none, false⟩]) = some pins' := by
    rw [syncPins_append, h2]
    simp only [Option.bind_some, syncPins, syncPin, Bool.false_eq_true, if_false, targetNext, hkind,
      if_true, Option.map_some]
    rfl
  have hnames : (pins .input).map (·.name) = (g.pins .input).map (·.name) := by
    rw [syncPins_names h2]
    simp [clearPins]
  have hp : ∃ q, (pins .input)[i]? = some q ∧ q.name = p.name := by
    have := congrArg (fun l => l[i]?) hnames
    simp only [List.getElem?_map, hi, Option.map_some] at this
    exact Option.map_eq_some_iff.1 this
  obtain ⟨q, hq, hqn⟩ := hp
  refine ⟨⟨.remap (toMap (pins' .input)), .remap (toMap (pins' .buffer)), g.outputs, f⟩, ?_, ?_, rfl,
    rfl, rfl⟩
  · rw [hg]
    simp only [exportTemplate, h1, h2', h3, Option.map_some]
  · intro n
    show (Remap.remap (toMap (pins' .input))).get n = _
    rw [get_toMap]
    have := find_modify (pins .input) i q hq (by rw [hnames]; exact hn) (.op k.name) n
    rw [← hqn]
    refine Eq.trans this ?_
    split
    · rfl
    · exact (get_toMap _ _).symm

/-- **C126** is false of what is drawn from a buffer: as soon as an edge is drawn from the node of a
buffer the template cannot be saved. Nor can such an edge lead to an operation of type `buffer`. -/
theorem C126_connect_buffer_violated (reg : Registry) (g : TGraph) (i : Nat) (k : Key) :
    ((g.connectPin .buffer i k).pinEdges ≠ g.pinEdges →
      exportTemplate reg (g.connectPin .buffer i k) = none ∧
      (g.nodes.get k).map (·.body.kind) ≠ some .buffer) := by
  intro hc
  have hg : g.connectPin .buffer i k =
      { g with pinEdges := g.pinEdges ++ [⟨.buffer, i, .op k, none, true⟩] } ∧
      (g.nodes.get k).map (·.body.kind) ≠ some .buffer := by
    unfold TGraph.connectPin at hc ⊢
    cases hk : g.nodes.get k with
    | none => rw [hk] at hc; exact absurd rfl hc
    | some o =>
      rw [hk] at hc
      simp only at hc ⊢
      by_cases hcond : (Side.buffer.reaches o.body.kind && decide (i < (g.pins .buffer).length) &&
        !g.pinEdges.any (fun e => e.side == .buffer && e.at_ == i)) = true
      · rw [if_pos hcond]
        refine ⟨rfl, ?_⟩
        intro e
        rw [Option.map_some, Option.some.injEq] at e
        rw [e] at hcond
        simp [Side.reaches] at hcond
      · rw [if_neg hcond] at hc
        exact absurd rfl hc
  refine ⟨?_, hg.2⟩
  rw [hg.1]
  cases he : exportTemplate reg { g with
      pinEdges := g.pinEdges ++ [⟨.buffer, i, .op k, none, true⟩] } with
  | none => rfl
  | some t =>
    exfalso
    obtain ⟨d, pins, f, _, h2, _, _⟩ := export_parts he
    simp only at h2
    rw [syncPins_append] at h2
    cases hs : syncPins (known g.outputs g.nodes).kind (fun s => clearPins (g.pins s)) g.pinEdges with
    | none => rw [hs] at h2; cases h2
    | some m => rw [hs] at h2; simp [syncPins, syncPin] at h2

/-- What an operation takes: a join and a listen take buffers, a buffer access takes both, and the others
take messages. Sections are apart, as their slots decide. -/
def Takes : Side → Kind → Prop
  | .input, k => k ∉ [Kind.join, .listen, .sect]
  | .buffer, k => k ∈ [Kind.join, .listen, .access]

/-- **C126** An edge is drawn from an input or a buffer just if there is such a node, it has no edge
yet, and the operation takes what comes from it. -/
theorem C126_connect_who (g : TGraph) (s : Side) (i : Nat) (k : Key) :
    (g.connectPin s i k).pinEdges ≠ g.pinEdges ↔
      (∃ o, g.nodes.get k = some o ∧ Takes s o.body.kind) ∧ (∃ p, (g.pins s)[i]? = some p) ∧
        ∀ e ∈ g.pinEdges, ¬ (e.side = s ∧ e.at_ = i) := by
  have hreach : ∀ x : Kind, s.reaches x = true ↔ Takes s x := by
    intro x
    cases s <;> cases x <;> simp [Side.reaches, Takes]
  have hpin : (∃ p, (g.pins s)[i]? = some p) ↔ i < (g.pins s).length := by
    exact ⟨fun ⟨p, h⟩ => (List.getElem?_eq_some_iff.1 h).1, fun h => ⟨_, List.getElem?_eq_getElem h⟩⟩
  unfold TGraph.connectPin
  cases hk : g.nodes.get k with
  | none => simp
  | some o =>
    simp only
    by_cases hc : (s.reaches o.body.kind && decide (i < (g.pins s).length) &&
        !g.pinEdges.any (fun e => e.side == s && e.at_ == i)) = true
    · rw [if_pos hc]
      simp only [Bool.and_eq_true, decide_eq_true_eq, Bool.not_eq_true', List.any_eq_false,
        beq_iff_eq, hreach] at hc
      exact ⟨fun _ => ⟨⟨o, rfl, hc.1.1⟩, hpin.2 hc.1.2, hc.2⟩, fun _ h => by
        have := congrArg List.length h
        simp at this⟩
    · rw [if_neg hc]
      refine ⟨fun h => absurd rfl h, fun ⟨⟨o', e, h1⟩, h2, h3⟩ => absurd ?_ hc⟩
      cases e
      simp only [Bool.and_eq_true, decide_eq_true_eq, Bool.not_eq_true', List.any_eq_false,
        beq_iff_eq, hreach]
      exact ⟨⟨h1, hpin.1 h2⟩, h3⟩

/-! ### Witnesses -/

/-- A template with two inputs, a buffer, an output, and a scope. -/
def press : Template where
  inputs := .remap [("oranges", .op "peel"), ("other", .dispose)]
  buffers := .forward ["glass"]
  outputs := ["juice"]
  ops :=
    .cons "peel" ⟨"p", .node "peel" (.op "glass") []⟩ .nil <|
    .cons "glass" ⟨"g", .buffer⟩ .nil <|
    .cons "pour" ⟨"q", .join (.arr [some (.op "glass")]) none (.op "box")⟩ .nil <|
    .cons "box" ⟨"b", .scope (.op "juice") [] (.op "mix")⟩
      (.cons "mix" ⟨"m", .transform .terminate⟩ .nil .nil) .nil

def noStreams : Registry := fun _ => none

example : templateTrip noStreams press = some { press with
    buffers := .remap [("glass", .op "glass")]
    ops :=
      .cons "box" ⟨"b", .scope (.op "juice") [] (.op "mix")⟩
        (.cons "mix" ⟨"m", .transform .terminate⟩ .nil .nil) <|
      .cons "pour" ⟨"q", .join (.arr [some (.op "glass")]) none (.op "box")⟩ .nil <|
      .cons "glass" ⟨"g", .buffer⟩ .nil <|
      .cons "peel" ⟨"p", .node "peel" (.op "glass") []⟩ .nil .nil } := by decide +kernel

theorem press_ops {ns : List Name} {n : Name} {o : Op} (h : opAt press.ops ns n = some o) :
    (⟨ns, n⟩, o) ∈ flatten [] press.ops :=
  (mem_flatten (by simp [press, Forest.Uniq, Forest.names]) [] ⟨ns, n⟩ o).2 ⟨ns, rfl, h⟩

/-- The hypothesis of `C126_round_trip_partial` is met by `press`. -/
theorem press_editable : TemplateEditable noStreams press where
  uniq := by simp [press, Forest.Uniq, Forest.names]
  outputs := by simp [press]
  distinct := by simp [press, opAt]
  scopes := by
    intro ns n m h
    obtain ⟨o, ho⟩ := Option.isSome_iff_exists.1 h
    have := press_ops ho
    simp only [press, flatten, List.nil_append, List.cons_append,
      List.mem_cons, List.not_mem_nil, Prod.mk.injEq, Key.mk.injEq, or_false] at this
    have key : ∀ x, ns ++ [n] = x → x = [] ∨ x = ["box"] →
        ∃ o, opAt press.ops ns n = some o ∧ o.body.kind = .scope := by
      rintro x h1 (h2 | h2)
      · rw [h2] at h1; simp at h1
      · rw [h2] at h1
        obtain ⟨rfl, h3⟩ := List.append_inj' (t₁ := [n]) (s₂ := []) (t₂ := ["box"]) h1 rfl
        cases h3
        exact ⟨_, rfl, rfl⟩
    rcases this with h | h | h | h | h <;> exact key _ h.1.1 (by simp)
  bodies := by
    intro ns n o h
    have := press_ops h
    simp only [press, flatten, List.nil_append, List.cons_append,
      List.mem_cons, List.not_mem_nil, Prod.mk.injEq, Key.mk.injEq, or_false] at this
    rcases this with h | h | h | h | h <;> obtain ⟨⟨rfl, rfl⟩, rfl⟩ := h <;>
      simp [BodyOk, DrawnOrDispose, Drawn, DrawnMap, BuffersOk, CloneOk, IsBuffer, opAt, press,
        Template.near]
  no_end := by
    intro n o h
    have := press_ops h
    simp only [press, flatten, List.nil_append, List.cons_append,
      List.mem_cons, List.not_mem_nil, Prod.mk.injEq, Key.mk.injEq, or_false] at this
    rcases this with h | h | h | h | h <;> obtain ⟨⟨h0, rfl⟩, rfl⟩ := h <;>
      simp [Body.targets, Body.targets.selTargets] at h0 ⊢
  inputs := by simp [RemapOk, press, Template.near, opAt]
  buffers := by simp [RemapOk, press, Template.near, opAt]

/-- The hypotheses of `C127_add_pin` and `C126_connect_input` are met by the graph of `press`: a second
new input is added, connected and saved. -/
example : ((loadTemplate press).bind fun g =>
      exportTemplate noStreams (((g.addPin .input).addPin .input).connectPin .input 3 ⟨[], "peel"⟩)).map
        (·.inputs) =
    some (.remap [("oranges", .op "peel"), ("other", .dispose), ("new_input", .dispose),
      ("new_input_1", .op "peel")]) := by decide +kernel

/-- An edge from the node of a buffer can be drawn to a join, and then the template cannot be saved. -/
example : ((loadTemplate press).map fun g =>
      let g' := (g.addPin .buffer).connectPin .buffer 1 ⟨[], "pour"⟩
      (g'.pinEdges.length, g.pinEdges.length, (exportTemplate noStreams g').isSome)) =
    some (3, 2, false) := by decide +kernel

/-- An input of `press` that has a target cannot be drawn anywhere else, a new one can be drawn to `peel`
but not to the join. -/
example : ((loadTemplate press).map fun g =>
      let n := fun (g' : TGraph) => g'.pinEdges.length
      (n g, n (g.connectPin .input 0 ⟨[], "peel"⟩), n ((g.addPin .input).connectPin .input 2 ⟨[], "peel"⟩),
        n ((g.addPin .input).connectPin .input 2 ⟨[], "pour"⟩))) =
    some (2, 2, 3, 2) := by decide +kernel

/-- An input that is passed on to an inner section. -/
def nested : Template where
  inputs := .remap [("a", .inner "s" "x")]
  buffers := .forward []
  outputs := []
  ops := .cons "s" ⟨"", .sect []⟩ .nil .nil

/-- An operation that ends the workflow. -/
def ending : Template where
  inputs := .forward ["f"]
  buffers := .forward []
  outputs := []
  ops := .cons "f" ⟨"", .transform .terminate⟩ .nil .nil

/-- **C126** is false in full: an input of an inner section that a template exposes becomes a
connection to the section itself, and a template with an operation that ends the workflow cannot be
opened. -/
theorem C126_violated : ¬ C126_full ∧
    (templateTrip noStreams nested).map (fun t => t.inputs.get "a") = some (some (.op "s")) ∧
    templateTrip noStreams ending = none := by
  refine ⟨fun h => ?_, by decide +kernel, by decide +kernel⟩
  obtain ⟨t', h1, _⟩ := h noStreams ending
    (by simp [ending, Forest.Uniq, Forest.names]) (by simp [ending]) (by simp [ending])
  rw [show templateTrip noStreams ending = none by decide +kernel] at h1
  cases h1

example : addUniqueSuffix "new_input" [] "_" = "new_input" ∧
    addUniqueSuffix "new_input" ["a", "new_input", "new_input_1"] "_" = "new_input_2" ∧
    addUniqueSuffix "new_input" ["new_input", "new_input_1"] "_" = "new_input_3" := by
  decide +kernel

end Verif.Editor
