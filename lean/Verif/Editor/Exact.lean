import Verif.Editor.Reopen
/-
What is exported is drawn.
-/
namespace Verif.Editor

theorem pad_get_or {α : Type} {l : List α} {d : α} {i j : Nat} {v w : α}
    (h : ((l ++ List.replicate (i + 1 - l.length) d).set i v)[j]? = some w) :
    (j = i ∧ w = v) ∨ w = d ∨ l[j]? = some w := by
  by_cases hji : j = i
  · subst hji
    rw [pad_get_self] at h
    cases h
    exact .inl ⟨rfl, rfl⟩
  · rw [List.getElem?_set_ne (Ne.symm hji)] at h
    by_cases hl : j < l.length
    · rw [List.getElem?_append_left hl] at h
      exact .inr (.inr h)
    · rw [List.getElem?_append_right (by omega)] at h
      exact .inr (.inl (List.eq_of_mem_replicate (List.mem_of_getElem? h)))

/-- What an edge adds to the targets of an operation. -/
theorem syncOut_only {kind kind' : EdgeKind} {t t' : Next} {b b' : Body}
    (hs : ∀ s, kind' = .stream s → b.kind = .node)
    (h : syncOut kind' (some t') b = some b') (hl : Leads b' kind t) :
    Leads b kind t ∨ t = .dispose ∨ (kind = kind' ∧ t = t') := by
  cases b <;> cases kind' <;> first | (cases h; done) | skip
  all_goals first | (cases h; exact .inl hl) | skip
  all_goals first | (rename_i s; cases hs s rfl; done) | skip
  all_goals (cases h; cases kind <;> first | (cases hl; done) | skip)
  all_goals first
    | exact .inl hl
    | exact .inr (.inr ⟨rfl, (Eq.symm hl)⟩)
    | exact .inr (.inr ⟨rfl, (Option.some.inj hl).symm⟩)
    | skip
  all_goals first
    | (rcases mem_setKey hl with e | e
       · cases e; exact .inr (.inr ⟨rfl, rfl⟩)
       · exact .inl e)
    | (rcases pad_get_or hl with ⟨rfl, e⟩ | e | e
       · first | (cases e; exact .inr (.inr ⟨rfl, rfl⟩)) | exact .inr (.inr ⟨rfl, e⟩)
       · first | (cases e; done) | exact .inr (.inl e)
       · exact .inl e)
    | skip
  · simp only [Leads] at hl
    split at hl
    · exact .inl hl
    · rcases List.mem_append.1 hl with e | e
      · exact .inl e
      · exact .inr (.inr ⟨rfl, List.mem_singleton.1 e⟩)

theorem setBuffer_only {s s' : Sel} {kind kind' : EdgeKind} {n n' : Name}
    (h : setBuffer s kind' n' = some s') (hh : s'.Has kind n) :
    s.Has kind n ∨ (n = n' ∧ kind'.buffer?.map (·.1) = kind.buffer?.map (·.1)) := by
  cases kind' <;> simp only [setBuffer] at h
  all_goals first | (cases h; done) | skip
  · split at h
    all_goals first | (cases h; done) | skip
    all_goals
      cases h
      cases kind <;> first | (cases hh; done) | skip
      rcases pad_get_or hh with ⟨rfl, e⟩ | e | e
      · cases e; exact .inr ⟨rfl, rfl⟩
      · cases e
      · first | exact .inl e | cases e
  · split at h
    all_goals first | (cases h; done) | skip
    all_goals
      cases h
      cases kind <;> first | (cases hh; done) | skip
      rcases mem_setKey hh with e | e
      · cases e; exact .inr ⟨rfl, rfl⟩
      · first | exact .inl e | cases e

theorem OnlyDrawn.mono {es : List Edge} {e : Edge} {k : Key} {b : Body} (h : OnlyDrawn es k b)
    (he : e.kind.buffer? = none ∨ e.target ≠ .op k) : OnlyDrawn (es ++ [e]) k b := by
  have hm : ∀ {x}, x ∈ es → x ∈ es ++ [e] := List.mem_append_left _
  refine ⟨?_, ?_, ?_, ?_⟩
  · intro kind t hl
    rcases h.targets kind t hl with h | ⟨x, hx, h⟩
    · exact .inl h
    · exact .inr ⟨x, hm hx, h⟩
  · intro next streams start hb
    obtain ⟨h1, h2⟩ := h.scope _ _ _ hb
    refine ⟨h1, ?_⟩
    rcases h2 with h | ⟨x, hx, h⟩
    · exact .inl h
    · exact .inr ⟨x, hm hx, h⟩
  · intro s kind n hs hh
    obtain ⟨x, hx, h⟩ := h.buffers s kind n hs hh
    exact ⟨x, hm hx, h⟩
  · intro s c next hb id
    rw [h.clone s c next hb id]
    constructor
    · rintro ⟨x, hx, h⟩; exact ⟨x, hm hx, h⟩
    · rintro ⟨x, hx, h1, h2⟩
      rcases List.mem_append.1 hx with hx | hx
      · exact ⟨x, hx, h1, h2⟩
      · rw [List.mem_singleton.1 hx] at h1 h2
        rcases he with he | he
        · rw [he] at h2; cases h2
        · exact absurd h1 he

theorem clear_only (k : Key) (b : Body) : OnlyDrawn [] k b.clear := by
  refine ⟨?_, ?_, ?_, ?_⟩
  · intro kind t h
    cases b <;> cases kind <;> simp_all [Body.clear, Leads]
  · intro next streams start h
    cases b <;> cases h
    exact ⟨rfl, .inl rfl⟩
  · intro s kind n hs hh
    cases b <;> cases hs <;> cases kind <;> simp_all [Sel.Has]
  · intro s c next h id
    cases b <;> cases h
    simp

/-- The targets of a `join`, `listen` or `buffer_access` do not depend on its buffers. -/
theorem syncBuffer_targets {kinds : Key → Option Kind} {e : Edge} {id : BufId} {f : Fetch}
    {b b' : Body} (h : syncBuffer kinds e id f b = some b') {kind : EdgeKind} {t : Next}
    (hl : Leads b' kind t) : Leads b kind t := by
  simp only [syncBuffer] at h
  split at h
  · split at h
    · split at h
      all_goals first | (cases h; done) | skip
      all_goals
        obtain ⟨s', _, rfl⟩ := Option.map_eq_some_iff.1 h
        cases kind <;> exact hl
    · cases h
  · cases h

theorem syncBuffer_clone {kinds : Key → Option Kind} {e : Edge} {id : BufId} {f : Fetch}
    {b : Body} {s : Sel} {c : Option (List BufId)} {next : Next}
    (h : syncBuffer kinds e id f b = some (.join s c next)) :
    ∃ s0 c0, b = .join s0 c0 next ∧ c = pushClone c0 f id := by
  simp only [syncBuffer] at h
  split at h
  · split at h
    · split at h
      all_goals first | (cases h; done) | skip
      all_goals obtain ⟨s', _, h2⟩ := Option.map_eq_some_iff.1 h
      all_goals first | (cases h2; done) | skip
      · cases h2; exact ⟨_, _, rfl, rfl⟩
    · cases h
  · cases h

theorem syncOut_clone {kind : EdgeKind} {t : Option Next} {b : Body} {s : Sel}
    {c : Option (List BufId)} {next : Next} (h : syncOut kind t b = some (.join s c next)) :
    ∃ next0, b = .join s c next0 := by
  cases b <;> simp only [syncOut] at h
  all_goals (repeat' split at h)
  all_goals first
    | (cases h; done)
    | (obtain ⟨t', _, h⟩ := Option.map_eq_some_iff.1 h; cases h; exact ⟨_, rfl⟩)
    | (obtain ⟨t', _, h⟩ := Option.map_eq_some_iff.1 h; cases h; done)

theorem syncOut_inner {kind : EdgeKind} {t : Option Next} {b : Body} {next : Next}
    {streams : List (Name × Next)} {start : Next} (hk : ∀ s, kind = .stream s → b.kind = .node)
    (h : syncOut kind t b = some (.scope next streams start)) :
    ∃ next0, b = .scope next0 streams start := by
  cases b <;> simp only [syncOut] at h
  all_goals (repeat' split at h)
  all_goals first
    | (cases h; done)
    | (obtain ⟨t', _, h⟩ := Option.map_eq_some_iff.1 h; cases h; done)
    | skip
  · cases hk _ rfl
  · obtain ⟨t', _, h⟩ := Option.map_eq_some_iff.1 h; cases h; exact ⟨_, rfl⟩

theorem syncOut_none {kind : EdgeKind} {b b' : Body} (h : syncOut kind none b = some b') :
    b' = b := by
  cases b <;> simp only [syncOut] at h
  all_goals (repeat' split at h)
  all_goals first | (cases h; rfl) | (cases h; done)

/-- An edge adds itself to the connections of its operation. -/
theorem OnlyDrawn.step {kinds : Key → Option Kind} {es : List Edge} {e : Edge} {k : Key}
    {b b' : Body} (h : OnlyDrawn es k b) (ho : Owned k e)
    (hv : ∀ s, e.kind = .stream s → e.source = .op k → b.kind = .node)
    (hb : syncBody kinds e b = some b') : OnlyDrawn (es ++ [e]) k b' := by
  have hlast : e ∈ es ++ [e] := by simp
  rcases ho with ⟨h1, h2⟩ | ⟨h1, h2 | h2⟩
  · obtain ⟨⟨id, f⟩, hk⟩ := Option.isSome_iff_exists.1 h1
    simp only [syncBody, hk] at hb
    have hm : ∀ {x}, x ∈ es → x ∈ es ++ [e] := List.mem_append_left _
    refine ⟨?_, ?_, ?_, ?_⟩
    · intro kind t hl
      rcases h.targets kind t (syncBuffer_targets hb hl) with h | ⟨x, hx, h⟩
      · exact .inl h
      · exact .inr ⟨x, hm hx, h⟩
    · intro next streams start hbs
      have := syncBuffer_head hb
      obtain ⟨src, s, s', _, _, q1, q2, _⟩ := syncBuffer_sel hb
      rw [hbs] at q2
      cases q2
    · intro s kind n hs hh
      obtain ⟨src, s0, s', q0, _, q1, q2, q3⟩ := syncBuffer_sel hb
      rw [q2] at hs
      cases hs
      rcases setBuffer_only q3 hh with hi | ⟨rfl, hi⟩
      · obtain ⟨x, hx, h⟩ := h.buffers s0 kind n q1 hi
        exact ⟨x, hm hx, h⟩
      · exact ⟨e, hlast, src, h2, q0, rfl, hi⟩
    · intro s c next hbs id'
      subst hbs
      obtain ⟨s0, c0, rfl, rfl⟩ := syncBuffer_clone hb
      have hold := h.clone s0 c0 next rfl id'
      constructor
      · intro hc
        have : id' ∈ c0.getD [] ∨ (f = .clone ∧ id' = id) := by
          cases f
          · exact .inl hc
          · exact .inl hc
          · simp only [pushClone, Option.getD_some, List.mem_append, List.mem_singleton] at hc
            exact hc.imp _root_.id fun e => ⟨rfl, e⟩
        rcases this with hc | ⟨rfl, rfl⟩
        · obtain ⟨x, hx, h⟩ := hold.1 hc
          exact ⟨x, hm hx, h⟩
        · exact ⟨e, hlast, h2, hk⟩
      · rintro ⟨x, hx, h3, h4⟩
        rcases List.mem_append.1 hx with hx | hx
        · have := hold.2 ⟨x, hx, h3, h4⟩
          cases f <;> simp only [pushClone, Option.getD_some, List.mem_append] <;>
            first | exact this | exact .inl this
        · rw [List.mem_singleton.1 hx, hk] at h4
          cases h4
          simp [pushClone]
  · have hs := syncBody_op h1 h2 hb
    have hold := h.mono (e := e) (.inl h1)
    cases ht : targetNext kinds e with
    | none =>
      rw [ht] at hs
      rw [syncOut_none hs]
      exact hold
    | some t0 =>
      rw [ht] at hs
      refine ⟨?_, ?_, ?_, ?_⟩
      · intro kind t hl
        rcases syncOut_only (fun s he => hv s he h2) hs hl with hl | hl | ⟨rfl, rfl⟩
        · exact hold.targets kind t hl
        · exact .inl hl
        · exact .inr ⟨e, hlast, h2, rfl, targetNext_next ht⟩
      · intro next streams start hbs
        subst hbs
        obtain ⟨n0, rfl⟩ := syncOut_inner (fun s he => hv s he h2) hs
        exact hold.scope _ _ _ rfl
      · intro s kind n hsel hh
        refine hold.buffers s kind n ?_ hh
        rw [← hsel]
        cases b <;> simp only [syncOut] at hs
        all_goals (repeat' split at hs)
        all_goals first
          | (cases hs; done)
          | (cases hs; rfl)
      · intro s c next hbs
        subst hbs
        obtain ⟨n0, rfl⟩ := syncOut_clone hs
        exact hold.clone _ _ _ rfl
  · simp only [syncBody, h1, h2] at hb
    have hold := h.mono (e := e) (.inl h1)
    split at hb
    · rename_i nx st s0
      obtain ⟨t, ht, rfl⟩ := Option.map_eq_some_iff.1 hb
      refine ⟨?_, ?_, nofun, nofun⟩
      · intro kind t' hl
        refine hold.targets kind t' ?_
        cases kind <;> exact hl
      · intro next streams start hbs
        cases hbs
        exact ⟨(hold.scope _ _ _ rfl).1, .inr ⟨e, hlast, h2, targetNext_next ht⟩⟩
    · cases hb

/-- What holds of a draft after some edges. -/
structure DraftOnly (N : Nodes) (es : List Edge) (d : Draft) : Prop where
  heads : SameHeads N d
  start : d.start = .dispose ∨
    ∃ e ∈ es, e.source = .start none ∧ e.target.next? e.slot = some d.start
  bodies : ∀ k o, d.nodes.get k = some o → OnlyDrawn es k o.body

theorem DraftOnly.step {reg : Registry} {N : Nodes} {es : List Edge} {d d' : Draft} {e : Edge}
    (h : DraftOnly N es d) (hv : validEdge reg N e = true) (hs : Step N.kind e d d') :
    DraftOnly N (es ++ [e]) d' := by
  have hst : d.start = .dispose ∨
      ∃ x ∈ es ++ [e], x.source = .start none ∧ x.target.next? x.slot = some d.start := by
    rcases h.start with h | ⟨x, hx, h⟩
    · exact .inl h
    · exact .inr ⟨x, List.mem_append_left _ hx, h⟩
  refine ⟨h.heads.step hs, ?_, ?_⟩
  · cases hs with
    | start hk hsrc t ht hd =>
      subst hd
      exact .inr ⟨e, by simp, hsrc, targetNext_next ht⟩
    | nothing _ _ _ hd => subst hd; exact hst
    | op k o b _ _ _ hd => subst hd; exact hst
  · cases hs with
    | start hk hsrc t ht hd =>
      subst hd
      exact fun k o hg => (h.bodies k o hg).mono (.inl hk)
    | nothing hk _ _ hd =>
      subst hd
      exact fun k o hg => (h.bodies k o hg).mono (.inl hk)
    | op k o b ho hg hb hd =>
      subst hd
      intro j o' hj
      by_cases hjk : j = k
      · subst hjk
        rw [get_put_self b hg] at hj
        cases hj
        refine (h.bodies j o hg).step ho ?_ hb
        intro s hs hsrc
        obtain ⟨k', o2, bu, nx, l, x, xs, e1, e2, e3, _⟩ := valid_stream hv hs
        rw [hsrc] at e1
        cases e1
        have := h.heads.kind hg
        simp only [Nodes.kind, e2, Option.map_some, e3, Body.kind, Option.some.injEq] at this
        exact this.symm
      · rw [get_put_ne b hjk] at hj
        refine (h.bodies j o' hj).mono ?_
        rcases ho with ⟨_, h2⟩ | ⟨h1, _⟩
        · right
          rw [h2]
          intro e
          cases e
          exact hjk rfl
        · exact .inl h1

theorem DraftOnly.all {reg : Registry} {N : Nodes} {es pre : List Edge} {d d' : Draft}
    (h : DraftOnly N pre d) (hv : ∀ e ∈ es, validEdge reg N e = true)
    (hs : syncAll N.kind d es = some d') : DraftOnly N (pre ++ es) d' := by
  induction es generalizing d pre with
  | nil => cases hs; simpa using h
  | cons e es ih =>
    obtain ⟨d1, h1, h2⟩ := Option.bind_eq_some_iff.1 hs
    have := ih (h.step (hv e (List.mem_cons_self ..)) (step_of h1))
      (fun e hx => hv e (List.mem_cons_of_mem _ hx)) h2
    simpa using this

theorem extra_step {kinds : Key → Option Kind} {e : Edge} {d d' : Draft} (h : Step kinds e d d')
    (k : Key) : (d'.nodes.get k).map (·.extra) = (d.nodes.get k).map (·.extra) := by
  cases h with
  | start _ _ _ _ hd => subst hd; rfl
  | nothing _ _ _ hd => subst hd; rfl
  | op j o b _ hg _ hd =>
    subst hd
    by_cases hk : k = j
    · subst hk
      simp only [get_put_self b hg, hg, Option.map_some]
    · simp only [get_put_ne b hk]

theorem extra_all {kinds : Key → Option Kind} {es : List Edge} {d d' : Draft}
    (h : syncAll kinds d es = some d') (k : Key) :
    (d'.nodes.get k).map (·.extra) = (d.nodes.get k).map (·.extra) := by
  induction es generalizing d with
  | nil => cases h; rfl
  | cons e es ih =>
    obtain ⟨d1, h1, h2⟩ := Option.bind_eq_some_iff.1 h
    exact (ih h2).trans (extra_step (step_of h1) k)

end Verif.Editor
