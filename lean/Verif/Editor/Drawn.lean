import Verif.Editor.Draw
/-
Edges that are exported stay exported, and what is exported can be loaded.
-/
namespace Verif.Editor

theorem targetNext_next {kinds : Key → Option Kind} {e : Edge} {t : Next}
    (h : targetNext kinds e = some t) : e.target.next? e.slot = some t := by
  obtain ⟨src, tgt, kind, slot⟩ := e
  simp only [targetNext] at h
  cases slot with
  | none =>
    cases tgt with
    | op k =>
      simp only at h
      split at h
      · exact h
      · cases h
    | start p => cases h
    | terminate ns => exact h
  | some i =>
    cases tgt with
    | op k =>
      simp only at h
      split at h
      · exact h
      · cases h
    | start p => cases h
    | terminate ns => cases h

/-- An edge sets the field that it belongs to. -/
theorem syncOut_leads {x : Kind} {kind : EdgeKind} {t : Next} {b b' : Body} (hx : b.kind = x)
    (ha : allowedFrom x kind = true) (hs : ∀ s, kind = .stream s → x = .node)
    (hk : kind.buffer? = none) (h : syncOut kind (some t) b = some b') : Leads b' kind t := by
  subst hx
  cases b <;> cases kind <;> first | (cases ha; done) | (cases hk; done) | skip
  all_goals first | (cases h; exact rfl) | skip
  · cases h; exact mem_setKey_self ..
  · rename_i l
    cases h
    show t ∈ _
    split
    · rename_i hm; simpa using hm
    · simp
  · cases h; exact pad_get_self ..
  · cases h; exact mem_setKey_self ..
  · cases h; exact pad_get_self ..
  · cases h; exact mem_setKey_self ..
  · rename_i s
    cases hs s rfl

/-- An edge leaves the fields of other edges. -/
theorem syncOut_keeps {kind kind' : EdgeKind} {t t' : Next} {b b' : Body}
    (hne : kind ≠ kind' ∨ b.kind = .forkClone) (hs : ∀ s, kind' = .stream s → b.kind = .node)
    (hl : Leads b kind t) (h : syncOut kind' (some t') b = some b') : Leads b' kind t := by
  cases b <;> cases kind' <;> first | (cases h; done) | skip
  all_goals first | (cases h; exact hl) | skip
  all_goals first | (rename_i s; cases hs s rfl; done) | skip
  all_goals (cases kind <;> first | (cases hl; done) | skip)
  all_goals first
    | (rcases hne with hne | hne <;> first | exact absurd rfl hne | (cases hne; done))
    | (cases h; exact hl)
    | skip
  · rename_i s s'
    cases h
    refine mem_setKey_ne _ ?_ hl
    rintro rfl
    rcases hne with hne | hne <;> first | exact absurd rfl hne | cases hne
  · rename_i l
    cases h
    show t ∈ _
    split
    · exact hl
    · exact List.mem_append_left _ hl
  · rename_i i j
    cases h
    refine pad_get_ne _ _ ?_ hl
    rintro rfl
    rcases hne with hne | hne <;> first | exact absurd rfl hne | cases hne
  · rename_i s s'
    cases h
    refine mem_setKey_ne _ ?_ hl
    rintro rfl
    rcases hne with hne | hne <;> first | exact absurd rfl hne | cases hne
  · rename_i i j
    cases h
    refine pad_get_ne _ _ ?_ hl
    rintro rfl
    rcases hne with hne | hne <;> first | exact absurd rfl hne | cases hne
  · rename_i s s'
    cases h
    refine mem_setKey_ne _ ?_ hl
    rintro rfl
    rcases hne with hne | hne <;> first | exact absurd rfl hne | cases hne

theorem syncBuffer_sel {kinds : Key → Option Kind} {e : Edge} {id : BufId} {f : Fetch} {b b' : Body}
    (h : syncBuffer kinds e id f b = some b') :
    ∃ src s s', e.source = .op src ∧ kinds src = some .buffer ∧ b.buffers? = some s ∧
      b'.buffers? = some s' ∧ setBuffer s e.kind src.name = some s' := by
  simp only [syncBuffer] at h
  split at h
  · rename_i src hsrc
    split at h
    · rename_i hk
      split at h
      all_goals first | (cases h; done) | skip
      all_goals
        obtain ⟨s', h1, rfl⟩ := Option.map_eq_some_iff.1 h
        exact ⟨src, _, s', hsrc, hk, rfl, rfl, h1⟩
    · cases h
  · cases h

theorem setBuffer_has {s s' : Sel} {kind : EdgeKind} {n : Name} (h : setBuffer s kind n = some s') :
    s'.Has kind n := by
  cases kind <;> simp only [setBuffer] at h
  all_goals first | (cases h; done) | skip
  · split at h
    · cases h; exact pad_get_self ..
    · cases h; exact pad_get_self ..
    · cases h
  · split at h
    · cases h; exact mem_setKey_self ..
    · cases h; exact mem_setKey_self ..
    · cases h

theorem setBuffer_keeps {s s' : Sel} {kind kind' : EdgeKind} {n n' : Name} {i j : BufId}
    {f f' : Fetch} (hi : kind.buffer? = some (i, f)) (hj : kind'.buffer? = some (j, f'))
    (hne : i ≠ j) (hs : s.Has kind n) (h : setBuffer s kind' n' = some s') : s'.Has kind n := by
  cases kind' <;> first | (cases hj; done) | skip
  all_goals (cases kind <;> first | (cases hi; done) | skip)
  all_goals (cases hi; cases hj; cases s <;> first | (cases hs; done) | skip)
  all_goals simp only [setBuffer] at h
  · cases h
    refine pad_get_ne _ _ ?_ hs
    rintro rfl
    exact hne rfl
  · split at h
    · cases h; contradiction
    · rename_i e; cases e; cases hs
    · cases h
  · split at h
    · cases h; contradiction
    · rename_i e; cases e; cases hs
    · cases h
  · cases h
    refine mem_setKey_ne _ ?_ hs
    rintro rfl
    exact hne rfl

theorem syncBuffer_leads {kinds : Key → Option Kind} {e : Edge} {id : BufId} {f : Fetch}
    {b b' : Body} {kind : EdgeKind} {t : Next} (hl : Leads b kind t)
    (h : syncBuffer kinds e id f b = some b') : Leads b' kind t := by
  simp only [syncBuffer] at h
  split at h
  · split at h
    · split at h
      all_goals first | (cases h; done) | skip
      all_goals
        obtain ⟨s', h1, rfl⟩ := Option.map_eq_some_iff.1 h
        cases kind <;> first | exact hl | (cases hl; done)
    · cases h
  · cases h

theorem syncOut_buffers {kind : EdgeKind} {t : Option Next} {b b' : Body}
    (h : syncOut kind t b = some b') : b'.buffers? = b.buffers? := by
  cases b <;> simp only [syncOut] at h
  all_goals (repeat' split at h)
  all_goals first
    | (cases h; done)
    | (cases h; rfl)
    | (obtain ⟨t', _, rfl⟩ := Option.map_eq_some_iff.1 h; rfl)

theorem syncOut_scope {kind : EdgeKind} {t : Option Next} {next start : Next}
    {streams : List (Name × Next)} {b' : Body}
    (h : syncOut kind t (.scope next streams start) = some b') :
    ∃ next' streams', b' = .scope next' streams' start := by
  simp only [syncOut] at h
  split at h
  · obtain ⟨t', _, rfl⟩ := Option.map_eq_some_iff.1 h; exact ⟨_, _, rfl⟩
  · obtain ⟨t', _, rfl⟩ := Option.map_eq_some_iff.1 h; exact ⟨_, _, rfl⟩
  · cases h

/-- The nodes of a draft are of the same types as those of the graph. -/
def SameHeads (N : Nodes) (d : Draft) : Prop :=
  ∀ k o, d.nodes.get k = some o → ∃ o', N.get k = some o' ∧ o'.body.head = o.body.head

theorem SameHeads.step {N : Nodes} {d d' : Draft} {kinds : Key → Option Kind} {e : Edge}
    (h : SameHeads N d) (hs : Step kinds e d d') : SameHeads N d' := by
  cases hs with
  | start _ _ t _ hd => subst hd; exact h
  | nothing _ _ _ hd => subst hd; exact h
  | op k o b _ hg hb hd =>
    subst hd
    intro j o' hj
    by_cases hjk : j = k
    · subst hjk
      rw [get_put_self b hg] at hj
      cases hj
      obtain ⟨o2, h1, h2⟩ := h j o hg
      exact ⟨o2, h1, h2.trans (syncBody_head hb).symm⟩
    · rw [get_put_ne b hjk] at hj
      exact h j o' hj

theorem SameHeads.kind {N : Nodes} {d : Draft} (h : SameHeads N d) {k : Key} {o : Op}
    (hg : d.nodes.get k = some o) : N.kind k = some o.body.kind := by
  obtain ⟨o', h1, h2⟩ := h k o hg
  simp only [Nodes.kind, h1, Option.map_some, kind_of_head h2]

/-- A stream that is not filtered away is of a node. -/
theorem valid_stream {reg : Registry} {N : Nodes} {e : Edge} (hv : validEdge reg N e = true)
    {s : Name} (hs : e.kind = .stream s) :
    ∃ k o b next l x xs, e.source = .op k ∧ N.get k = some o ∧
      o.body = .node b next l ∧ reg b = some (x :: xs) := by
  obtain ⟨src, tgt, kind, slot⟩ := e
  simp only at hs
  subst hs
  simp only [validEdge] at hv
  split at hv
  · rename_i k
    split at hv
    · rename_i ex b next l hg
      split at hv
      · rename_i x xs hr
        exact ⟨k, _, b, next, l, x, xs, rfl, hg, rfl, hr⟩
      · cases hv
    · cases hv
  · cases hv

theorem syncBody_op {kinds : Key → Option Kind} {e : Edge} {k : Key} {b b' : Body}
    (hk : e.kind.buffer? = none) (hs : e.source = .op k) (h : syncBody kinds e b = some b') :
    syncOut e.kind (targetNext kinds e) b = some b' := by
  simpa only [syncBody, hk, hs] using h

/-- An edge whose target cannot be exported changes nothing, and stops the export or is ignored. -/
theorem syncOut_some {x : Kind} {kind : EdgeKind} {t : Option Next} {b b' : Body} (hx : b.kind = x)
    (ha : allowedFrom x kind = true) (hk : kind.buffer? = none)
    (h : syncOut kind t b = some b') : ∃ t', t = some t' := by
  cases t with
  | some t => exact ⟨t, rfl⟩
  | none =>
    subst hx
    cases b <;> cases kind <;> first | (cases ha; done) | (cases hk; done) | (cases h; done) | skip

/-- After its step an edge is exported. -/
theorem exported_self {reg : Registry} {N : Nodes} {d d' : Draft} {e : Edge} (hh : SameHeads N d)
    (ha : Allowed N e) (hv : validEdge reg N e = true) (h : Step N.kind e d d') :
    Exported d'.start d'.ops e := by
  cases h with
  | start hk hs t ht hd =>
    subst hd
    simp only [Exported, hk, hs]
    exact ⟨t, targetNext_next ht, rfl⟩
  | nothing hk ns hs hd =>
    simp only [Allowed, hs] at ha
  | op k o b ho hg hb hd =>
    subst hd
    have hg' : Draft.ops { d with nodes := d.nodes.put k b } k.ns k.name =
        some { o with body := b } := get_put_self b hg
    rcases ho with ⟨h1, h2⟩ | ⟨h1, h2 | h2⟩
    · obtain ⟨⟨id, f⟩, hk⟩ := Option.isSome_iff_exists.1 h1
      simp only [syncBody, hk] at hb
      obtain ⟨src, s, s', h3, _, h4, h5, h6⟩ := syncBuffer_sel hb
      simp only [Exported, hk]
      exact ⟨k, src, _, s', h2, h3, hg', h5, setBuffer_has h6⟩
    · simp only [Exported, h1, h2]
      have hb' := syncBody_op h1 h2 hb
      simp only [Allowed, h2] at ha
      obtain ⟨x, ha1, ha2⟩ := ha
      rw [hh.kind hg] at ha1
      cases ha1
      obtain ⟨t, ht⟩ := syncOut_some rfl ha2 h1 hb'
      rw [ht] at hb'
      refine ⟨t, targetNext_next ht, _, hg', syncOut_leads rfl ha2 ?_ h1 hb'⟩
      intro s hs
      obtain ⟨k', o', bu, nx, l, x, xs, e1, e2, e3, _⟩ := valid_stream hv hs
      rw [h2] at e1
      cases e1
      obtain ⟨o2, g1, g2⟩ := hh k o hg
      rw [e2] at g1
      cases g1
      rw [← kind_of_head g2, e3]
      rfl
    · simp only [Exported, h1, h2]
      simp only [syncBody, h1, h2] at hb
      split at hb
      · obtain ⟨t, ht, hbt⟩ := Option.map_eq_some_iff.1 hb
        subst hbt
        exact ⟨t, targetNext_next ht, _, _, _, hg', rfl⟩
      · cases hb

/-- A step of an edge leaves the fields of another one that does not conflict with it. -/
theorem exported_other {reg : Registry} {N : Nodes} {d d' : Draft} {e e' : Edge}
    (hh : SameHeads N d) (ha : Allowed N e) (ha' : Allowed N e') (hv' : validEdge reg N e' = true)
    (hc : ¬ Conflict N e e') (hx : Exported d.start d.ops e) (h : Step N.kind e' d d') :
    Exported d'.start d'.ops e := by
  cases h with
  | nothing _ _ _ hd => subst hd; exact hx
  | start hk hs t ht hd =>
    subst hd
    cases hb : e.kind.buffer? with
    | some p => simp only [Exported, hb] at hx ⊢; exact hx
    | none =>
      simp only [Exported, hb] at hx ⊢
      obtain ⟨t', h1, h2⟩ := hx
      refine ⟨t', h1, ?_⟩
      cases hse : e.source with
      | op k => rw [hse] at h2; exact h2
      | terminate ns => rw [hse] at h2; exact h2
      | start p =>
        cases p with
        | some k => rw [hse] at h2; exact h2
        | none =>
          exfalso
          apply hc
          simp only [Allowed, hs] at ha'
          simp only [Allowed, hse] at ha
          simp only [Conflict, hb, hk]
          exact ⟨hse.trans hs.symm, ha.trans ha'.symm, fun k h => by rw [hse] at h; cases h⟩
  | op k o b ho hg hbody hd =>
    subst hd
    have hself : Draft.ops { d with nodes := d.nodes.put k b } k.ns k.name =
        some { o with body := b } := get_put_self b hg
    have hother : ∀ j : Key, j ≠ k →
        Draft.ops { d with nodes := d.nodes.put k b } j.ns j.name = d.ops j.ns j.name :=
      fun j hj => get_put_ne b hj
    cases hb : e.kind.buffer? with
    | some p =>
      obtain ⟨i, f⟩ := p
      simp only [Exported, hb] at hx ⊢
      obtain ⟨j, src, o', s, h1, h2, h3, h4, h5⟩ := hx
      by_cases hj : j = k
      · subst hj
        have : o' = o := Option.some.inj (h3.symm.trans hg)
        subst this
        rcases ho with ⟨g1, g2⟩ | ⟨g1, g2 | g2⟩
        · obtain ⟨⟨i', f'⟩, hk⟩ := Option.isSome_iff_exists.1 g1
          simp only [syncBody, hk] at hbody
          obtain ⟨src', s1, s2, e3, _, e4, e5, e6⟩ := syncBuffer_sel hbody
          rw [h4] at e4
          cases e4
          refine ⟨j, src, _, s2, h1, h2, hself, e5, ?_⟩
          refine setBuffer_keeps hb hk ?_ h5 e6
          intro hij
          apply hc
          simp only [Conflict, hb, hk]
          exact ⟨h1.trans g2.symm, hij⟩
        · have := syncOut_buffers (syncBody_op g1 g2 hbody)
          exact ⟨j, src, _, s, h1, h2, hself, this.trans h4, h5⟩
        · simp only [syncBody, g1, g2] at hbody
          split at hbody
          · rename_i hs; rw [hs] at h4; cases h4
          · cases hbody
      · exact ⟨j, src, o', s, h1, h2, (hother j hj).trans h3, h4, h5⟩
    | none =>
      simp only [Exported, hb] at hx ⊢
      obtain ⟨t, h1, h2⟩ := hx
      refine ⟨t, h1, ?_⟩
      cases hse : e.source with
      | terminate ns => rw [hse] at h2; exact h2
      | op j =>
        rw [hse] at h2
        obtain ⟨o', h3, h4⟩ := h2
        by_cases hj : j = k
        · subst hj
          have : o' = o := Option.some.inj (h3.symm.trans hg)
          subst this
          refine ⟨_, hself, ?_⟩
          rcases ho with ⟨g1, g2⟩ | ⟨g1, g2 | g2⟩
          · obtain ⟨⟨i', f'⟩, hk⟩ := Option.isSome_iff_exists.1 g1
            simp only [syncBody, hk] at hbody
            exact syncBuffer_leads h4 hbody
          · have hbody' := syncBody_op g1 g2 hbody
            simp only [Allowed, g2] at ha'
            obtain ⟨x, a1, a2⟩ := ha'
            rw [hh.kind hg] at a1
            cases a1
            obtain ⟨t', ht'⟩ := syncOut_some rfl a2 g1 hbody'
            rw [ht'] at hbody'
            refine syncOut_keeps ?_ ?_ h4 hbody'
            · by_cases hkk : e.kind = e'.kind
              · refine .inr ?_
                refine Decidable.byContradiction fun hf => hc ?_
                simp only [Conflict, hb, g1]
                refine ⟨hse.trans g2.symm, hkk, ?_⟩
                intro k' hk'
                rw [hse] at hk'
                cases hk'
                rw [hh.kind hg]
                intro hfk
                exact hf (Option.some.inj hfk)
              · exact .inl hkk
            · intro s hs
              obtain ⟨k', o2, bu, nx, l, x, xs, e1, e2, e3, _⟩ := valid_stream hv' hs
              rw [g2] at e1
              cases e1
              obtain ⟨o3, q1, q2⟩ := hh j o' hg
              rw [e2] at q1
              cases q1
              rw [← kind_of_head q2, e3]
              rfl
          · simp only [syncBody, g1, g2] at hbody
            split at hbody
            · rename_i hbo
              obtain ⟨t', _, hbt⟩ := Option.map_eq_some_iff.1 hbody
              subst hbt
              rw [hbo] at h4
              cases hke : e.kind <;> rw [hke] at h4 <;> first | exact h4 | cases h4
            · cases hbody
        · exact ⟨o', (hother j hj).trans h3, h4⟩
      | start p =>
        cases p with
        | none => rw [hse] at h2; exact h2
        | some j =>
          rw [hse] at h2
          obtain ⟨o', next, streams, h3, h4⟩ := h2
          by_cases hj : j = k
          · subst hj
            have : o' = o := Option.some.inj (h3.symm.trans hg)
            subst this
            rcases ho with ⟨g1, g2⟩ | ⟨g1, g2 | g2⟩
            · obtain ⟨⟨i', f'⟩, hk⟩ := Option.isSome_iff_exists.1 g1
              simp only [syncBody, hk] at hbody
              obtain ⟨_, s1, _, _, _, e4, _⟩ := syncBuffer_sel hbody
              rw [h4] at e4
              cases e4
            · have hbody' := syncBody_op g1 g2 hbody
              rw [h4] at hbody'
              obtain ⟨nx, st, hb'⟩ := syncOut_scope hbody'
              exact ⟨_, nx, st, hself, hb'⟩
            · exfalso
              apply hc
              simp only [Allowed, g2] at ha'
              simp only [Allowed, hse] at ha
              simp only [Conflict, hb, g1]
              exact ⟨hse.trans g2.symm, ha.trans ha'.symm, fun k h => by rw [hse] at h; cases h⟩
          · exact ⟨o', next, streams, (hother j hj).trans h3, h4⟩

/-- Every edge is exported after all of them. -/
theorem exported_all {reg : Registry} {N : Nodes} {es : List Edge} {d d' : Draft}
    (hh : SameHeads N d) (ha : ∀ e ∈ es, Allowed N e) (hv : ∀ e ∈ es, validEdge reg N e = true)
    (hc : es.Pairwise fun a b => ¬ Conflict N a b) (h : syncAll N.kind d es = some d') :
    (∀ e ∈ es, Exported d'.start d'.ops e) ∧
      ∀ e, Allowed N e → Exported d.start d.ops e → (∀ e' ∈ es, ¬ Conflict N e e') →
        Exported d'.start d'.ops e := by
  induction es generalizing d with
  | nil => cases h; exact ⟨List.forall_mem_nil _, fun _ _ h _ => h⟩
  | cons e es ih =>
    simp only [syncAll] at h
    obtain ⟨d1, h1, h2⟩ := Option.bind_eq_some_iff.1 h
    have hs := step_of h1
    rw [List.pairwise_cons] at hc
    obtain ⟨h3, h4⟩ := ih (hh.step hs) (fun e he => ha e (List.mem_cons_of_mem _ he))
      (fun e he => hv e (List.mem_cons_of_mem _ he)) hc.2 h2
    refine ⟨?_, ?_⟩
    · intro x hx
      rcases List.mem_cons.1 hx with rfl | hx
      · exact h4 x (ha x (List.mem_cons_self ..))
          (exported_self hh (ha x (List.mem_cons_self ..)) (hv x (List.mem_cons_self ..)) hs) hc.1
      · exact h3 x hx
    · intro x hx1 hx2 hx3
      refine h4 x hx1 ?_ fun e' he' => hx3 e' (List.mem_cons_of_mem _ he')
      exact exported_other hh hx1 (ha e (List.mem_cons_self ..)) (hv e (List.mem_cons_self ..))
        (hx3 e (List.mem_cons_self ..)) hx2 hs

end Verif.Editor
