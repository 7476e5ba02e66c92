import Verif.Editor.Reopen
/-
When exporting a graph succeeds.
-/
namespace Verif.Editor

/-- An edge whose ends can be exported. -/
def Drawable (N : Nodes) (e : Edge) : Prop :=
  match e.kind.buffer? with
  | some _ => ∃ k src, e.target = .op k ∧ e.source = .op src ∧ N.kind src = some .buffer ∧
      (N.kind k = some .join ∨ N.kind k = some .listen ∨ N.kind k = some .access)
  | none => (∃ t, targetNext N.kind e = some t) ∧
      match e.source with
      | .op k => ∃ x, N.kind k = some x ∧ allowedFrom x e.kind = true
      | .start none => True
      | .start (some k) => N.kind k = some .scope
      | .terminate _ => False

/-- Two edges give an operation buffers, one by index and one by key. -/
def Mixed (a b : Edge) : Prop :=
  a.target = b.target ∧ ((∃ i f k g, a.kind = .bufferSeq i f ∧ b.kind = .bufferKey k g) ∨
    ∃ i f k g, a.kind = .bufferKey k g ∧ b.kind = .bufferSeq i f)

/-- The buffers that an operation has go with the edges that it will get. -/
def SelOk (es : List Edge) (k : Key) (b : Body) : Prop :=
  ∀ s, b.buffers? = some s → ∀ e ∈ es, e.target = .op k →
    (∀ x l, s = .arr (x :: l) → ∀ y f, e.kind ≠ .bufferKey y f) ∧
    ∀ x l, s = .dict (x :: l) → ∀ i f, e.kind ≠ .bufferSeq i f

theorem setBuffer_total {s : Sel} {kind : EdgeKind} (n : Name) (hk : kind.buffer?.isSome)
    (h1 : ∀ x l, s = .arr (x :: l) → ∀ y f, kind ≠ .bufferKey y f)
    (h2 : ∀ x l, s = .dict (x :: l) → ∀ i f, kind ≠ .bufferSeq i f) :
    ∃ s', setBuffer s kind n = some s' ∧ (∀ l, s' = .arr l → ∃ i f, kind = .bufferSeq i f) ∧
      ∀ l, s' = .dict l → ∃ y f, kind = .bufferKey y f := by
  cases kind <;> try (cases hk; done)
  case bufferSeq i f =>
    cases s with
    | arr l => exact ⟨_, rfl, fun _ _ => ⟨i, f, rfl⟩, nofun⟩
    | dict l =>
      cases l with
      | nil => exact ⟨_, rfl, fun _ _ => ⟨i, f, rfl⟩, nofun⟩
      | cons x l => exact absurd rfl (h2 x l rfl i f)
  case bufferKey y f =>
    cases s with
    | dict l => exact ⟨_, rfl, nofun, fun _ _ => ⟨y, f, rfl⟩⟩
    | arr l =>
      cases l with
      | nil => exact ⟨_, rfl, nofun, fun _ _ => ⟨y, f, rfl⟩⟩
      | cons x l => exact absurd rfl (h1 x l rfl y f)

theorem syncOut_total {x : Kind} {kind : EdgeKind} (t : Next) {b : Body} (hx : b.kind = x)
    (ha : allowedFrom x kind = true) (hk : kind.buffer? = none) :
    ∃ b', syncOut kind (some t) b = some b' := by
  subst hx
  cases b <;> cases kind <;> first
    | (cases ha; done)
    | (cases hk; done)
    | exact ⟨_, rfl⟩

theorem drawable_step {N : Nodes} {d : Draft} {e : Edge} {es : List Edge} (hh : SameHeads N d)
    (hk : d.nodes.map (·.1) = N.map (·.1)) (he : Drawable N e)
    (hs : ∀ k o, d.nodes.get k = some o → SelOk (e :: es) k o.body)
    (hm : ∀ e' ∈ es, ¬ Mixed e e') :
    ∃ d', syncEdge N.kind d e = some d' ∧ ∀ k o, d'.nodes.get k = some o → SelOk es k o.body := by
  have hget : ∀ k x, N.kind k = some x → ∃ o, d.nodes.get k = some o ∧ o.body.kind = x := by
    intro k x hx
    obtain ⟨o0, h0, _⟩ := Option.map_eq_some_iff.1 hx
    obtain ⟨o, ho⟩ := Option.isSome_iff_exists.1
      (mem_keys_get (N := d.nodes) (k := k) (by rw [hk]; exact get_mem_keys h0))
    have := hh.kind ho
    rw [hx] at this
    exact ⟨o, ho, (Option.some.inj this).symm⟩
  have htail : ∀ k o, d.nodes.get k = some o → SelOk es k o.body := by
    intro k o ho s hb e' he'
    exact hs k o ho s hb e' (List.mem_cons_of_mem _ he')
  -- a change of one operation
  have hchange : ∀ k o b, d.nodes.get k = some o → SelOk es k b →
      ∀ j o', (d.nodes.put k b).get j = some o' → SelOk es j o'.body := by
    intro k o b ho hb j o' hj
    by_cases hjk : j = k
    · subst hjk
      rw [get_put_self b ho] at hj
      cases hj
      exact hb
    · rw [get_put_ne b hjk] at hj
      exact htail j o' hj
  cases hb : e.kind.buffer? with
  | some p =>
    obtain ⟨id, f⟩ := p
    simp only [Drawable, hb] at he
    obtain ⟨k, src, e1, e2, e3, e4⟩ := he
    obtain ⟨o, ho, hkind⟩ : ∃ o, d.nodes.get k = some o ∧
        (o.body.kind = .join ∨ o.body.kind = .listen ∨ o.body.kind = .access) := by
      rcases e4 with h | h | h
      · obtain ⟨o, h1, h2⟩ := hget k _ h; exact ⟨o, h1, .inl h2⟩
      · obtain ⟨o, h1, h2⟩ := hget k _ h; exact ⟨o, h1, .inr (.inl h2)⟩
      · obtain ⟨o, h1, h2⟩ := hget k _ h; exact ⟨o, h1, .inr (.inr h2)⟩
    obtain ⟨s, hsel, hsync⟩ : ∃ s, o.body.buffers? = some s ∧
        ∀ s', setBuffer s e.kind src.name = some s' →
          ∃ b, syncBuffer N.kind e id f o.body = some b ∧ b.buffers? = some s' := by
      obtain ⟨ex, body⟩ := o
      simp only at hkind
      cases body <;> first
        | (rcases hkind with h | h | h <;> cases h; done)
        | skip
      all_goals
        refine ⟨_, rfl, ?_⟩
        intro s' hs'
        simp only [syncBuffer, e2, e3, hs', if_true, Option.map_some]
        exact ⟨_, rfl, rfl⟩
    obtain ⟨q1, q2⟩ := hs k o ho s hsel e (List.mem_cons_self ..) e1
    obtain ⟨s', h1, h2, h3⟩ := setBuffer_total src.name (by rw [hb]; rfl) q1 q2
    obtain ⟨b, h4, h5⟩ := hsync s' h1
    refine ⟨{ d with nodes := d.nodes.put k b }, ?_, ?_⟩
    · simp only [syncEdge, hb, e1, Draft.change, ho, h4, Option.map_some]
    · refine hchange k o b ho ?_
      intro s2 hs2 e' he' ht'
      rw [h5] at hs2
      cases hs2
      refine ⟨?_, ?_⟩
      · intro x l hl y g hx
        obtain ⟨i, f', hi⟩ := h2 _ hl
        exact hm e' he' ⟨e1.trans ht'.symm, .inl ⟨i, f', y, g, hi, hx⟩⟩
      · intro x l hl i g hx
        obtain ⟨y, f', hi⟩ := h3 _ hl
        exact hm e' he' ⟨e1.trans ht'.symm, .inr ⟨i, g, y, f', hi, hx⟩⟩
  | none =>
    simp only [Drawable, hb] at he
    obtain ⟨⟨t, ht⟩, he⟩ := he
    cases hsrc : e.source with
    | op k =>
      rw [hsrc] at he
      obtain ⟨x, hx, ha⟩ := he
      obtain ⟨o, ho, hkind⟩ := hget k x hx
      obtain ⟨b, h1⟩ := syncOut_total t hkind ha hb
      refine ⟨{ d with nodes := d.nodes.put k b }, ?_, ?_⟩
      · simp only [syncEdge, hb, hsrc, Draft.change, ho, ht, h1, Option.map_some]
      · refine hchange k o b ho ?_
        intro s hs'
        rw [syncOut_buffers h1] at hs'
        exact htail k o ho s hs'
    | start p =>
      cases p with
      | none =>
        refine ⟨{ d with start := t }, ?_, htail⟩
        simp only [syncEdge, hb, hsrc, ht, Option.map_some]
      | some k =>
        rw [hsrc] at he
        obtain ⟨o, ho, hkind⟩ := hget k _ he
        obtain ⟨ex, body⟩ := o
        cases body <;> first | (cases hkind; done) | skip
        rename_i next streams start
        refine ⟨{ d with nodes := d.nodes.put k (.scope next streams t) }, ?_, ?_⟩
        · simp only [syncEdge, hb, hsrc, Draft.change, ho, ht, Option.map_some]
        · refine hchange k _ _ ho ?_
          intro s hs'; cases hs'
    | terminate ns => rw [hsrc] at he; exact he.elim

theorem syncAll_total {N : Nodes} {es : List Edge} {d : Draft} (hh : SameHeads N d)
    (hk : d.nodes.map (·.1) = N.map (·.1)) (he : ∀ e ∈ es, Drawable N e)
    (hs : ∀ k o, d.nodes.get k = some o → SelOk es k o.body)
    (hm : es.Pairwise fun a b => ¬ Mixed a b) : ∃ d', syncAll N.kind d es = some d' := by
  induction es generalizing d with
  | nil => exact ⟨d, rfl⟩
  | cons e es ih =>
    rw [List.pairwise_cons] at hm
    obtain ⟨d1, h1, h2⟩ := drawable_step hh hk (he e (List.mem_cons_self ..)) hs hm.1
    have hst := step_of h1
    obtain ⟨d2, h3⟩ := ih (hh.step hst) ((keys_step hst).trans hk)
      (fun e' h => he e' (List.mem_cons_of_mem _ h)) h2 hm.2
    exact ⟨d2, by simp only [syncAll, h1, Option.bind_some, h3]⟩

/-- A graph can be exported if its nodes are in scopes, its edges can be exported, and no operation has
buffers by index and by key. -/
theorem export_total (reg : Registry) {N : Nodes} {es : List Edge} (tpl : String) (hn : NodesOk N)
    (he : ∀ e ∈ es, Drawable N e) (hm : es.Pairwise fun a b => ¬ Mixed a b) :
    ∃ d, export_ reg ⟨N, es⟩ tpl = some d := by
  obtain ⟨dr, h1⟩ := syncAll_total (es := es.filter (validEdge reg N)) (cleared_heads N .dispose)
    (cleared_keys N) (fun e h => he e (List.mem_filter.1 h).1) (by
      intro k o ho s hb
      have ho : (cleared N).get k = some o := ho
      rw [cleared, get_map_body] at ho
      obtain ⟨o', _, rfl⟩ := Option.map_eq_some_iff.1 ho
      intro e _ _
      obtain ⟨ex, body⟩ := o'
      cases body <;> simp only [Body.clear, Body.buffers?] at hb <;> cases hb <;>
        exact ⟨nofun, nofun⟩) (hm.filter _)
  obtain ⟨hh, hk⟩ := syncAll_frame (cleared_heads N .dispose) h1
  have hk' : dr.nodes.map (·.1) = N.map (·.1) := hk.trans (cleared_keys N)
  have hnd : (dr.nodes.map (·.1)).Nodup := by rw [hk']; exact hn.uniq
  have hperm := sortByDepth_perm dr.nodes
  have hn' : ((sortByDepth dr.nodes).map (·.1)).Nodup := (hperm.map _).nodup_iff.2 hnd
  obtain ⟨f, h5, _⟩ := build_ok hn' (sortByDepth_sorted dr.nodes) (by
    intro k o hm r s rest hkr
    have hg := get_of_mem hnd (hperm.mem_iff.1 hm)
    obtain ⟨o0, g1, _⟩ := hh k o hg
    obtain ⟨so, g2, g3⟩ := hn.in_scopes rest r s k o0 (get_mem g1) hkr
    have g4 : (⟨r, s⟩ : Key) ∈ dr.nodes.map (·.1) := by
      rw [hk']; exact List.mem_map.2 ⟨_, g2, rfl⟩
    obtain ⟨so', g5⟩ := Option.isSome_iff_exists.1 (mem_keys_get g4)
    obtain ⟨so2, g6, g7⟩ := hh _ _ g5
    rw [get_of_mem hn.uniq g2] at g6
    cases g6
    exact ⟨so', hperm.mem_iff.2 (get_mem g5), (kind_of_head g7).symm.trans g3⟩)
  refine ⟨⟨dr.start, f, tpl, none, none⟩, ?_⟩
  simp only [export_]
  show (syncAll N.kind ⟨.dispose, cleared N⟩ _).bind _ = _
  rw [h1, Option.bind_some, h5, Option.map_some]

end Verif.Editor
