import Verif.Editor.ReachLoad
import Verif.Editor.FieldProps
import Verif.Editor.Witness
/-
C128: what can be drawn in the editor.
-/
namespace Verif.Editor

theorem place_op_inv {b : Board} {n : Node} {k : Key} (h : b.place n = .op k) :
    ∃ o, n.item = .op k.ns k.name o := by
  simp only [Board.place] at h
  split at h
  · rename_i ns name o hi; cases h; exact ⟨o, hi⟩
  · split at h <;> cases h
  · cases h

theorem place_start_inv {b : Board} {n : Node} {p : Option Key} (h : b.place n = .start p) :
    n.item = .start := by
  simp only [Board.place] at h
  split at h
  · cases h
  · assumption
  · cases h

theorem place_terminate_inv {b : Board} {n : Node} {ns : List Name} (h : b.place n = .terminate ns) :
    n.item = .terminate := by
  simp only [Board.place] at h
  split at h
  · cases h
  · split at h <;> cases h
  · assumption

/-- The ends of an edge allow it. -/
theorem fits_valid {b : Board} (hb : Sound b) {e : Edge} (hf : Fits b.graph.nodes e) {s t : Node}
    (hs : s ∈ b.nodes) (ht : t ∈ b.nodes) (es : b.place s = e.source) (et : b.place t = e.target) :
    s.item.hasHandle e.kind.handle = true ∧ e.kind.type ∈ s.item.outputs ∧
      e.kind.handle.allows e.kind.type = true ∧ t.item.takes e.kind.type = true := by
  have hal := hf.allowed
  have hall : e.kind.handle.allows e.kind.type = true := by
    cases e.kind <;> simp [EdgeKind.handle, EdgeKind.type, Handle.allows]
  refine ⟨?_, ?_, hall, ?_⟩
  · unfold Allowed at hal
    split at hal
    · rename_i k hk
      rw [hk] at es
      obtain ⟨o, hi⟩ := place_op_inv es
      obtain ⟨x, h1, h2⟩ := hal
      rw [show k = ⟨k.ns, k.name⟩ from rfl, hb.kind hs hi, Option.some.injEq] at h1
      subst h1
      rw [hi]
      cases hk : e.kind <;> rw [hk] at h2 <;> cases hx : o.body.kind <;> rw [hx] at h2 <;>
        first
        | (simp [allowedFrom] at h2; done)
        | simp [EdgeKind.handle, Item.hasHandle, hx]
    · rename_i p hp
      rw [hp] at es
      rw [place_start_inv es, hal]
      rfl
    · exact hal.elim
  · unfold Allowed at hal
    split at hal
    · rename_i k hk
      rw [hk] at es
      obtain ⟨o, hi⟩ := place_op_inv es
      obtain ⟨x, h1, h2⟩ := hal
      rw [show k = ⟨k.ns, k.name⟩ from rfl, hb.kind hs hi, Option.some.injEq] at h1
      subst h1
      rw [hi]
      cases hk : e.kind <;> rw [hk] at h2 <;> cases hx : o.body.kind <;> rw [hx] at h2 <;>
        first
        | (simp [allowedFrom] at h2; done)
        | simp [EdgeKind.type, Item.outputs, hx]
    · rename_i p hp
      rw [hp] at es
      rw [place_start_inv es, hal]
      simp [EdgeKind.type, Item.outputs]
    · exact hal.elim
  · have htk := hf.takes
    split at htk
    · rename_i k hk
      rw [hk] at et
      obtain ⟨o, hi⟩ := place_op_inv et
      obtain ⟨x, h1, h2⟩ := htk
      rw [show k = ⟨k.ns, k.name⟩ from rfl, hb.kind ht hi, Option.some.injEq] at h1
      subst h1
      rw [hi]
      cases hk : e.kind <;> rw [hk] at h2 <;> cases hx : o.body.kind <;> rw [hx] at h2 <;>
        first
        | (simp [EdgeKind.buffer?] at h2; done)
        | simp [EdgeKind.type, Item.takes, hx]
    · rename_i ns hp
      rw [hp] at et
      rw [place_terminate_inv et]
      cases hk : e.kind <;> rw [hk] at htk <;>
        first
        | (simp [EdgeKind.buffer?] at htk; done)
        | simp [EdgeKind.type, Item.takes]
    · exact htk.elim

/-- What is entered in the form of an edge to make it of the kind. -/
def plan (k : EdgeKind) : List Field :=
  let fetch : Fetch → List Field
    | .unset => []
    | .pull => [.fetch true, .fetch false]
    | .clone => [.fetch true]
  .type k.type :: match k with
    | .stream x => [.stream x]
    | .splitKey x => [.splitKey x]
    | .splitSeq i => [.splitSeq i]
    | .sect x => [.output x]
    | .bufferSeq i f => .bufferSeq i :: fetch f
    | .bufferKey x f => .byKey true :: .bufferKey x :: fetch f
    | _ => []

/-- A new edge can be made of any kind that its ends allow, except for other outputs of an `unzip`. -/
theorem plan_wire {s t : Item} {id src tgt : Uid} {h : Handle} {ty : EType} {k : EdgeKind}
    (hk : k.type ∈ validTypes s h t) (hu : ∀ i, k = .unzip i → i = 0) (hsect : t.isSect = false)
    (hf : ∀ id f, k.buffer? = some (id, f) → f ≠ .unset → t.isJoin = true) :
    (plan k).foldl (fun (w : Wire) f => w.field s t f) ⟨id, src, h, tgt, ty.fresh, none⟩ =
      (⟨id, src, h, tgt, k, none⟩ : Wire) := by
  have h0 : (⟨id, src, h, tgt, ty.fresh, none⟩ : Wire).field s t (.type k.type) =
      ⟨id, src, h, tgt, k.type.fresh, none⟩ := by
    simp only [Wire.field, fresh_type]
    by_cases hty : k.type = ty
    · simp [hty]
    · simp [hk, hty]
  simp only [plan, List.foldl_cons, h0]
  cases k with
  | unzip i => rw [hu i rfl]; rfl
  | bufferSeq i f =>
    cases f with
    | unset => rfl
    | pull =>
      have hj := hf _ _ rfl (by simp)
      simp [Wire.field, EdgeKind.type, EType.fresh, hj]
    | clone =>
      have hj := hf _ _ rfl (by simp)
      simp [Wire.field, EdgeKind.type, EType.fresh, hj]
  | bufferKey x f =>
    cases f with
    | unset => simp [Wire.field, EdgeKind.type, EType.fresh, hsect]
    | pull =>
      have hj := hf _ _ rfl (by simp)
      simp [Wire.field, EdgeKind.type, EType.fresh, hj, hsect]
    | clone =>
      have hj := hf _ _ rfl (by simp)
      simp [Wire.field, EdgeKind.type, EType.fresh, hj, hsect]
  | _ => rfl

/-- Entering things in the form of the last edge changes this edge only. -/
theorem plan_board (fs : List Field) : ∀ (b : Board) (l : List Wire) (w : Wire) (s t : Node), Sound b →
    b.edges = l ++ [w] → (∀ x ∈ l, x.id ≠ w.id) → b.node w.source = some s → b.node w.target = some t →
    ∃ b', Edits b b' ∧ b'.nodes = b.nodes ∧
      b'.edges = l ++ [fs.foldl (fun w f => w.field s.item t.item f) w] := by
  induction fs with
  | nil => intro b l w s t _ h _ _ _; exact ⟨b, .none b, rfl, h⟩
  | cons f fs ih =>
    intro b l w s t hb hl hne hs ht
    have hw : w ∈ b.edges := by rw [hl]; simp
    obtain ⟨s', hs', t', ht', e1, e2, _, e4, e5⟩ := hb.ends w hw
    have q1 : s' = s := by
      have := hb.node hs'; rw [e1, hs] at this; exact (Option.some.inj this).symm
    have q2 : t' = t := by
      have := hb.node ht'; rw [e2, ht] at this; exact (Option.some.inj this).symm
    subst q1 q2
    obtain ⟨r1, r2, _, r4, _⟩ := Wire.field_ok s'.item t'.item f w e4 e5
    have hedges : (b.field w.id f).edges = l ++ [w.field s'.item t'.item f] := by
      simp only [Board.field, hl, List.map_append, List.map_cons, List.map_nil, if_true, hs, ht]
      congr 1
      refine (List.map_congr_left ?_).trans (List.map_id _)
      intro x hx
      rw [if_neg (hne x hx)]
      rfl
    obtain ⟨b', h1, h2, h3⟩ := ih (b.field w.id f) l _ s' t' (hb.field w.id f) hedges
      (by rw [r1]; exact hne) (by rw [r2]; exact hs) (by rw [r4]; exact ht)
    exact ⟨b', Edits.trans (.more (.none b) (.field w.id f)) h1, h2, h3⟩

/-- One edge is drawn and given its data. -/
theorem draw_one {b : Board} (hb : Sound b) (he : Ends b)
    (hw : ∀ w ∈ b.edges, w.handle = w.kind.handle) {e : Edge} (hf : Fits b.graph.nodes e)
    (hc : ∀ e' ∈ b.graph.edges, ¬ Clash b.graph.nodes e' e) :
    ∃ b', Edits b b' ∧ Sound b' ∧ b'.nodes = b.nodes ∧ (∀ w ∈ b'.edges, w.handle = w.kind.handle) ∧
      b'.graph.edges = b.graph.edges ++ [e] := by
  obtain ⟨s, hs, es⟩ := place_exists hb he hf.source
  obtain ⟨t, ht, et⟩ := place_exists hb he hf.target
  obtain ⟨v1, v2, v3, v4⟩ := fits_valid hb hf hs ht es et
  obtain ⟨id, hid⟩ := fresh_uids (b.edges.map (·.id))
  have hnew : (id : Uid) ∉ b.edges.map (·.id) := fun hm => absurd (hid id hm) (Nat.lt_irrefl _)
  have old : ∀ w ∈ b.edges, w.source = s.id → w.handle = e.kind.handle →
      ∃ t' ∈ b.nodes, t'.id = w.target ∧
        ¬ Clash b.graph.nodes ⟨e.source, b.place t', w.kind, w.slot⟩ e ∧ w.kind.handle = e.kind.handle := by
    intro w hwm h1 h2
    obtain ⟨s', hs', t', ht', e1, e2, _⟩ := hb.ends w hwm
    have : s' = s := id_inj hb.ids hs' hs (e1.trans h1)
    subst this
    refine ⟨t', ht', e2, ?_, by rw [← hw w hwm, h2]⟩
    refine hc _ ?_
    simp only [Board.graph, List.mem_filterMap]
    exact ⟨w, hwm, by simp only [← e1, ← e2, hb.node hs', hb.node ht', es]⟩
  have hfree : (s.item.single e.kind.handle = true → ∀ w ∈ b.edges, w.source = s.id →
        w.handle ≠ e.kind.handle) ∧
      ∀ w ∈ b.edges, w.source = s.id → w.handle = e.kind.handle → w.target ≠ t.id := by
    constructor
    · intro hsing w hwm h1 h2
      obtain ⟨t', _, _, hcl, hh⟩ := old w hwm h1 h2
      refine hcl ⟨rfl, hh, .inr ?_⟩
      simp only [hh]
      by_cases hd : e.kind.handle = .dataStream
      · exact .inl hd
      · right
        rintro ⟨k, x, q1, q2, q3⟩
        rw [q1] at es
        obtain ⟨o, hi⟩ := place_op_inv es
        rw [show k = ⟨k.ns, k.name⟩ from rfl, hb.kind hs hi, Option.some.injEq] at q2
        subst q2
        rw [hi] at hsing
        simp only [Item.single, hd, if_false] at hsing
        cases hx : o.body.kind <;> rw [hx] at q3 hsing <;>
          first
          | (simp [manyKinds] at q3; done)
          | (simp at hsing; done)
    · intro w hwm h1 h2 h3
      obtain ⟨t', ht', e2, hcl, hh⟩ := old w hwm h1 h2
      have : t' = t := id_inj hb.ids ht' ht (e2.trans h3)
      subst this
      exact hcl ⟨rfl, hh, .inl et⟩
  obtain ⟨w, hconn, w1, w2, w3, w4, _, _, _, w5, w6⟩ := (C122_connect b hb s t hs ht id e.kind.handle).1
    ⟨v1, ⟨_, v2, v3, v4⟩, hfree.1, hfree.2⟩
  have hsect : t.item.isSect = false := by
    have htk := hf.takes
    split at htk
    · rename_i k hk
      rw [hk] at et
      obtain ⟨o, hi⟩ := place_op_inv et
      obtain ⟨x, h1, h2⟩ := htk
      rw [show k = ⟨k.ns, k.name⟩ from rfl, hb.kind ht hi, Option.some.injEq] at h1
      subst h1
      rw [hi]
      simp only [Item.isSect, beq_eq_false_iff_ne, ne_eq]
      intro hx
      rw [hx] at h2
      revert h2
      split <;> decide
    · rename_i ns hp
      rw [hp] at et
      rw [place_terminate_inv et]; rfl
    · exact htk.elim
  have hjoin : ∀ id f, e.kind.buffer? = some (id, f) → f ≠ .unset → t.item.isJoin = true := by
    intro id f h1 h2
    obtain ⟨k, hk, hx⟩ := hf.fetch id f h1 h2
    rw [hk] at et
    obtain ⟨o, hi⟩ := place_op_inv et
    rw [show k = ⟨k.ns, k.name⟩ from rfl, hb.kind ht hi, Option.some.injEq] at hx
    rw [hi]
    simp [Item.isJoin, hx]
  have e1 : Edit b (b.connect id s.id e.kind.handle t.id) := .connect id s.id e.kind.handle t.id hnew
  have hb1 : Sound (b.connect id s.id e.kind.handle t.id) := hb.edit e1
  rw [hconn] at e1 hb1
  rw [hsect, if_neg (by simp)] at w6
  obtain ⟨b2, e2, hnodes, hedges⟩ := plan_board (plan e.kind) _ b.edges w s t hb1 rfl
    (by rw [w1]; exact fun x hx h => hnew (h ▸ List.mem_map.2 ⟨x, hx, rfl⟩))
    (by rw [w2]; exact hb.node hs) (by rw [w4]; exact hb.node ht)
  have hedges : b2.edges = b.edges ++ [⟨id, s.id, e.kind.handle, t.id, e.kind, none⟩] := by
    rw [hedges]
    obtain ⟨i, a, c, f, g, j⟩ := w
    simp only at w1 w2 w3 w4 w5 w6
    subst w1 w2 w3 w4 w6
    rw [w5, plan_wire (k := e.kind) ?_ hf.unzip hsect hjoin]
    simp only [validTypes, List.mem_filter]
    exact ⟨⟨v2, v3⟩, v4⟩
  have hedits : Edits b b2 := Edits.trans (.more (.none b) e1) e2
  have hb2 : Sound b2 := hb.edits hedits
  have hnodes : b2.nodes = b.nodes := hnodes
  refine ⟨b2, hedits, hb2, hnodes, ?_, ?_⟩
  · intro x hx
    rw [hedges] at hx
    rcases List.mem_append.1 hx with hx | hx
    · exact hw x hx
    · rw [List.mem_singleton] at hx; subst hx; rfl
  · have hnode : ∀ x, b2.node x = b.node x := by intro x; simp only [Board.node, hnodes]
    have hplace : ∀ x, b2.place x = b.place x := by
      intro x; simp only [Board.place, Board.space, hnode]
    simp only [Board.graph, hedges, hnode, hplace, List.filterMap_append, List.filterMap_cons,
      List.filterMap_nil, hb.node hs, hb.node ht, es, et]
    congr 2
    obtain ⟨a, c, f, g⟩ := e
    have : g = none := hf.slot
    rw [this]

/-- Edges are drawn one after the other. -/
theorem draw_all (es : List Edge) : ∀ b : Board, Sound b → Ends b →
    (∀ w ∈ b.edges, w.handle = w.kind.handle) → (∀ e ∈ es, Fits b.graph.nodes e) →
    ((b.graph.edges ++ es).Pairwise fun e e' => ¬ Clash b.graph.nodes e e') →
    ∃ b', Edits b b' ∧ b'.nodes = b.nodes ∧ b'.graph.edges = b.graph.edges ++ es := by
  induction es with
  | nil => intro b _ _ _ _ _; exact ⟨b, .none b, rfl, by simp⟩
  | cons e es ih =>
    intro b hb he hw hf hp
    obtain ⟨b1, h1, h2, h3, h4, h5⟩ := draw_one hb he hw (hf e (List.mem_cons_self ..)) (by
      intro e' he'
      exact (List.pairwise_append.1 hp).2.2 e' he' e (List.mem_cons_self ..))
    have hg : b1.graph.nodes = b.graph.nodes := by simp only [Board.graph, h3]
    have he1 : Ends b1 := by
      refine ⟨?_, ?_, ?_, ?_⟩ <;> rw [h3]
      · exact he.rootStart
      · exact he.rootEnd
      · exact he.scopeStart
      · exact he.scopeEnd
    obtain ⟨b2, q1, q2, q3⟩ := ih b1 h2 he1 h4
      (by rw [hg]; exact fun x hx => hf x (List.mem_cons_of_mem _ hx))
      (by rw [hg, h5, List.append_assoc]; exact hp)
    exact ⟨b2, h1.trans q1, q2.trans h3, by rw [q3, h5, List.append_assoc]; rfl⟩

/-- The full claim of C128: every diagram that the editor keeps can be drawn. -/
def C128_full : Prop := ∀ (reg : Registry) (d : Diagram), Editable reg d →
  ∃ b d', Edits Board.empty b ∧ export_ reg b.graph d.templates = some d' ∧ SameDiagram d d'

/-- **C128** For every registry and every diagram that the editor keeps and whose connections are not in
each other's way: there are edits that lead from an empty diagram to one that is exported as this
diagram.

Missing from the full claim are nodes with more than one stream and an `unzip` with more than one output,
which cannot be drawn (`C128_streams_violated`, `C128_unzip_violated`), two connections from the same output to the same target, which cannot be
drawn directly (`C122_connect`), and connections to sections and to operations that take buffers
only. -/
theorem C128_can_be_drawn_partial (reg : Registry) (d : Diagram) (h : Editable reg d) (hs : ByHand d) :
    ∃ b d', Edits Board.empty b ∧ export_ reg b.graph d.templates = some d' ∧ SameDiagram d d' := by
  obtain ⟨d', h1, h2⟩ := C120_round_trip_partial reg d h
  simp only [roundTrip, Option.bind_eq_some_iff] at h1
  obtain ⟨g, hg, hx⟩ := h1
  obtain ⟨gn, good⟩ := load_good h hs hg
  have hempty : Board.empty.graph.nodes = [] := rfl
  obtain ⟨b1, l, e1, s1, n1, w1, _, g1⟩ := add_all d.ops Board.empty none Sound.empty Ends.empty rfl
    (scoped_of h.uniq h.scopes) (by
      rw [hempty, List.nil_append]
      exact flatten_nodup h.uniq [])
  rw [hempty, List.nil_append] at g1
  have g1 : b1.graph.nodes = flatten [] d.ops := g1
  have w0 : b1.edges = [] := w1
  have hg0 : b1.graph.edges = [] := by simp only [Board.graph, w0, List.filterMap_nil]
  obtain ⟨b2, e2, n2, w2⟩ := draw_all g.edges b1 s1 n1 (by rw [w0]; exact fun _ h => nomatch h)
    (by rw [g1]; exact good.1) (by rw [g1, hg0, List.nil_append]; exact good.2)
  refine ⟨b2, d', e1.trans e2, ?_, h2⟩
  have : b2.graph = g := by
    have h3 : b2.graph.nodes = g.nodes := by
      rw [gn, ← g1]; simp only [Board.graph, n2]
    rw [hg0, List.nil_append] at w2
    cases hb : b2.graph with
    | mk a c => rw [hb] at h3 w2; simp only at h3 w2; rw [h3, w2]
  rw [this]
  exact hx

/-- No two edges start at the streams of the same node. -/
theorem one_stream {b : Board} (hs : Sound b) :
    b.edges.Pairwise fun w w' => w.kind.type = .stream → w'.kind.type = .stream →
      w.source ≠ w'.source := by
  refine (List.Pairwise.and_mem.1 hs.single).imp ?_
  rintro w w' ⟨hm, hm', hsing⟩ t1 t2 e
  have hd : ∀ x ∈ b.edges, x.kind.type = .stream → x.handle = .dataStream := by
    intro x hx ht
    obtain ⟨_, _, _, _, _, _, _, hv, _⟩ := hs.ends x hx
    simp only [validTypes, List.mem_filter] at hv
    rw [ht] at hv
    cases hh : x.handle <;> rw [hh] at hv <;> simp [Handle.allows] at hv ⊢
  obtain ⟨s, h1, _, _, h2, _⟩ := hs.ends w hm
  have := hsing e (by rw [hd w hm t1, hd w' hm' t2]) s h1 h2
  rw [hd w hm t1] at this
  simp [Item.single] at this

/-- **C128** is false of nodes with more than one stream: in every diagram that is made with the editor
and exported, no node has two streams that lead anywhere. -/
theorem C128_streams_violated (reg : Registry) (b : Board) (templates : String) (d : Diagram)
    (h : Edits Board.empty b) (hx : export_ reg b.graph templates = some d) (ns : List Name) (n : Name)
    (o : Op) (ho : opAt d.ops ns n = some o) (builder : String) (next : Next)
    (streams : List (Name × Next)) (hb : o.body = .node builder next streams) (s s' : Name) (t t' : Next)
    (hm : (s, t) ∈ streams) (hm' : (s', t') ∈ streams) (ht : t ≠ .dispose) (ht' : t' ≠ .dispose) :
    s = s' := by
  have hs : Sound b := Sound.empty.edits h
  have hd := ((C121_only_drawn reg b.graph templates d hs.nodesOk hx).2 ns n o ho).targets
  rw [hb] at hd
  have wire : ∀ s t, (s, t) ∈ streams → t ≠ .dispose → ∃ w ∈ b.edges, ∃ m ∈ b.nodes,
      m.id = w.source ∧ b.place m = .op ⟨ns, n⟩ ∧ w.kind = .stream s := by
    intro s t hm ht
    rcases hd (.stream s) t hm with h1 | ⟨e, he, h1, h2, _⟩
    · exact absurd h1 ht
    · obtain ⟨w, hw, m, hmm, _, _, q1, _, _, _, rfl⟩ := mem_graph_edges hs he
      exact ⟨w, hw, m, hmm, q1, h1, h2⟩
  obtain ⟨w, hw, m, hmm, q1, q2, q3⟩ := wire s t hm ht
  obtain ⟨w', hw', m', hmm', q1', q2', q3'⟩ := wire s' t' hm' ht'
  have := place_inj hs hmm hmm' q2 q2'
  subst this
  have hp := one_stream hs
  have : w = w' := by
    refine Classical.byContradiction fun hne => ?_
    have key : ∀ (l : List Wire), (l.Pairwise fun w w' => w.kind.type = .stream →
        w'.kind.type = .stream → w.source ≠ w'.source) → w ∈ l → w' ∈ l → False := by
      intro l hl h1 h2
      induction l with
      | nil => cases h1
      | cons x l ih =>
        rw [List.pairwise_cons] at hl
        rcases List.mem_cons.1 h1 with rfl | g1
        · rcases List.mem_cons.1 h2 with rfl | g2
          · exact hne rfl
          · exact hl.1 _ g2 (by rw [q3]; rfl) (by rw [q3']; rfl) (q1.symm.trans q1')
        · rcases List.mem_cons.1 h2 with rfl | g2
          · exact hl.1 _ g1 (by rw [q3']; rfl) (by rw [q3]; rfl) (q1'.symm.trans q1)
          · exact ih hl.2 g1 g2
    exact key _ hp hw hw'
  subst this
  rw [q3] at q3'
  cases q3'
  rfl

/-- **C128** is false of an `unzip` with more than one output: in every diagram that is made with the editor
and exported, no output of an `unzip` but the first leads anywhere. -/
theorem C128_unzip_violated (reg : Registry) (b : Board) (templates : String) (d : Diagram)
    (h : Edits Board.empty b) (hx : export_ reg b.graph templates = some d) (ns : List Name) (n : Name)
    (o : Op) (ho : opAt d.ops ns n = some o) (l : List (Option Next)) (hb : o.body = .unzip l) (i : Nat)
    (t : Next) (hi : l[i]? = some (some t)) (ht : t ≠ .dispose) : i = 0 := by
  have hs : Sound b := Sound.empty.edits h
  have hd := ((C121_only_drawn reg b.graph templates d hs.nodesOk hx).2 ns n o ho).targets
  rw [hb] at hd
  rcases hd (.unzip i) t hi with h1 | ⟨e, he, _, h2, _⟩
  · exact absurd h1 ht
  · obtain ⟨w, hw, _, _, _, _, _, _, _, _, rfl⟩ := mem_graph_edges hs he
    exact first_outputs h w hw i h2

/-- A node with two streams. -/
def twoStreams : Diagram :=
  flat (.op "n") [("n", .node "count" .terminate [("ticks", .terminate), ("tocks", .terminate)])]

theorem twoStreams_editable : Editable reg1 twoStreams where
  uniq := by simp [twoStreams, flat, Forest.Uniq, Forest.names]
  scopes := by
    intro ns n m h
    cases ns with
    | nil => simp [twoStreams, flat, opAt] at h
    | cons x ns => simp [twoStreams, flat, opAt] at h
  bodies := by
    intro ns n o h
    cases ns with
    | nil =>
      simp only [twoStreams, flat, List.foldr_cons, List.foldr_nil, opAt] at h
      split at h
      · cases h
        simp [BodyOk, DrawnOrDispose, Drawn, DrawnMap, reg1]
      · cases h
    | cons x ns =>
      simp only [twoStreams, flat, List.foldr_cons, List.foldr_nil, opAt] at h
      split at h <;> cases h
  start := .inl (by simp [Drawn, opAt, twoStreams, flat])
  defaultTrace := rfl
  onImplicitError := rfl

/-- **C128** is false in full. -/
theorem C128_violated : ¬ C128_full := by
  intro h
  obtain ⟨b, d, h1, h2, h3⟩ := h reg1 twoStreams twoStreams_editable
  have ho := h3.ops [] "n"
  have : opAt twoStreams.ops [] "n" =
      some ⟨"{}", .node "count" .terminate [("ticks", .terminate), ("tocks", .terminate)]⟩ := rfl
  rw [this] at ho
  have := C128_streams_violated reg1 b _ d h1 h2 [] "n" _ ho _ _ _ rfl "ticks" "tocks" .terminate .terminate
    (by simp) (by simp) (by simp) (by simp)
  exact absurd this (by decide)

/-- A diagram with most kinds of operations, and a scope in a scope. -/
def byHand : Diagram where
  start := .op "n"
  ops :=
    .cons "n" ⟨"config", .node "count" (.op "f") [("ticks", .op "sc")]⟩ .nil <|
    .cons "f" ⟨"", .forkClone [.op "b1", .op "b2", .terminate]⟩ .nil <|
    .cons "b1" ⟨"", .buffer⟩ .nil <|
    .cons "b2" ⟨"", .buffer⟩ .nil <|
    .cons "j" ⟨"", .join (.arr [some (.op "b1"), some (.op "b2")]) (some [.idx 0]) (.op "sp")⟩ .nil <|
    .cons "sp" ⟨"", .split [("x", .op "u")] [.dispose, .op "sc"] (some .terminate)⟩ .nil <|
    .cons "u" ⟨"", .unzip [some (.op "sc")]⟩ .nil <|
    .cons "sc" ⟨"title", .scope .dispose [] (.op "in")⟩
      (.cons "in" ⟨"", .scope .terminate [] (.op "t")⟩
        (.cons "t" ⟨"", .forkResult .terminate .dispose⟩ .nil .nil) .nil) .nil
  templates := "{}"
  defaultTrace := none
  onImplicitError := none

theorem byHand_ops {ns : List Name} {n : Name} {o : Op} (h : opAt byHand.ops ns n = some o) :
    (⟨ns, n⟩, o) ∈ flatten [] byHand.ops :=
  (mem_flatten (by simp [byHand, Forest.Uniq, Forest.names]) [] ⟨ns, n⟩ o).2 ⟨ns, rfl, h⟩

theorem byHand_editable : Editable reg1 byHand where
  uniq := by simp [byHand, Forest.Uniq, Forest.names]
  scopes := by
    intro ns n m h
    obtain ⟨o, ho⟩ := Option.isSome_iff_exists.1 h
    have := byHand_ops ho
    simp only [byHand, flatten, List.nil_append, List.cons_append,
      List.mem_cons, List.not_mem_nil, Prod.mk.injEq, Key.mk.injEq, or_false] at this
    have key : ∀ x, ns ++ [n] = x → x = [] ∨ x = ["sc"] ∨ x = ["sc", "in"] →
        ∃ o, opAt byHand.ops ns n = some o ∧ o.body.kind = .scope := by
      rintro x h1 (h2 | h2 | h2)
      · rw [h2] at h1; simp at h1
      · rw [h2] at h1
        obtain ⟨rfl, h3⟩ := List.append_inj' (t₁ := [n]) (s₂ := []) (t₂ := ["sc"]) h1 rfl
        cases h3
        exact ⟨_, rfl, rfl⟩
      · rw [h2] at h1
        obtain ⟨rfl, h3⟩ := List.append_inj' (t₁ := [n]) (s₂ := ["sc"]) (t₂ := ["in"]) h1 rfl
        cases h3
        exact ⟨_, rfl, rfl⟩
    rcases this with h | h | h | h | h | h | h | h | h | h <;>
      exact key _ h.1.1 (by simp)
  bodies := by
    intro ns n o h
    have := byHand_ops h
    simp only [byHand, flatten, List.nil_append, List.cons_append,
      List.mem_cons, List.not_mem_nil, Prod.mk.injEq, Key.mk.injEq, or_false] at this
    rcases this with h | h | h | h | h | h | h | h | h | h <;> obtain ⟨⟨rfl, rfl⟩, rfl⟩ := h <;>
      simp [BodyOk, DrawnOrDispose, Drawn, DrawnMap, BuffersOk, CloneOk, IsBuffer, opAt, byHand,
        reg1]
    · exact ⟨1, by simp, by simp, rfl⟩
  start := .inl (by simp [Drawn, opAt, byHand])
  defaultTrace := rfl
  onImplicitError := rfl

/-- The hypotheses of `C128_can_be_drawn_partial` are met by a diagram with nested scopes. -/
theorem byHand_byHand : ByHand byHand where
  bodies := by
    intro ns n o h
    have := byHand_ops h
    simp only [byHand, flatten, List.nil_append, List.cons_append,
      List.mem_cons, List.not_mem_nil, Prod.mk.injEq, Key.mk.injEq, or_false] at this
    rcases this with h | h | h | h | h | h | h | h | h | h <;> obtain ⟨⟨rfl, rfl⟩, rfl⟩ := h <;>
      simp [Simple, Fair, Sel.Apart, opAt, byHand, Body.kind]
  start := by simp [Fair, opAt, byHand, Body.kind]

example : ∃ b d', Edits Board.empty b ∧ export_ reg1 b.graph "{}" = some d' ∧ SameDiagram byHand d' :=
  C128_can_be_drawn_partial reg1 byHand byHand_editable byHand_byHand

/-- The hypotheses of `C128_unzip_violated` are met: there is an `unzip` whose first output leads to a
scope. -/
example : ∃ b d o l, Edits Board.empty b ∧ export_ reg1 b.graph "{}" = some d ∧
    opAt d.ops [] "u" = some o ∧ o.body = .unzip l ∧ l[0]? = some (some (.op "sc")) := by
  obtain ⟨b, d, h1, h2, h3⟩ := C128_can_be_drawn_partial reg1 byHand byHand_editable byHand_byHand
  have ho := h3.ops [] "u"
  have hu : opAt byHand.ops [] "u" = some ⟨"", .unzip [some (.op "sc")]⟩ := rfl
  rw [hu] at ho
  exact ⟨b, d, _, _, h1, h2, ho, rfl, rfl⟩

end Verif.Editor
