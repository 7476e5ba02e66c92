import Verif.Editor.Drawn
/-
What is exported from a graph that has been edited, and that it can be loaded again.
-/
namespace Verif.Editor

theorem keys_step {kinds : Key → Option Kind} {e : Edge} {d d' : Draft} (h : Step kinds e d d') :
    d'.nodes.map (·.1) = d.nodes.map (·.1) := by
  cases h with
  | start _ _ _ _ hd => subst hd; rfl
  | nothing _ _ _ hd => subst hd; rfl
  | op k o b _ _ _ hd => subst hd; exact keys_put ..

theorem syncAll_frame {N : Nodes} {es : List Edge} {d d' : Draft} (hh : SameHeads N d)
    (h : syncAll N.kind d es = some d') :
    SameHeads N d' ∧ d'.nodes.map (·.1) = d.nodes.map (·.1) := by
  induction es generalizing d with
  | nil => cases h; exact ⟨hh, rfl⟩
  | cons e es ih =>
    obtain ⟨d1, h1, h2⟩ := Option.bind_eq_some_iff.1 h
    obtain ⟨h3, h4⟩ := ih (hh.step (step_of h1)) h2
    exact ⟨h3, h4.trans (keys_step (step_of h1))⟩

/-- The nodes before any edge is exported. -/
def cleared (N : Nodes) : Nodes := N.map fun (k, o) => (k, { o with body := o.body.clear })

theorem clear_head (b : Body) : b.clear.head = b.head := by cases b <;> rfl

theorem cleared_heads (N : Nodes) (t : Next) : SameHeads N ⟨t, cleared N⟩ := by
  intro k o h
  have h1 : (cleared N).get k = some o := h
  rw [cleared, get_map_body] at h1
  obtain ⟨o', h2, rfl⟩ := Option.map_eq_some_iff.1 h1
  exact ⟨o', h2, (clear_head _).symm⟩

theorem cleared_keys (N : Nodes) : (cleared N).map (·.1) = N.map (·.1) := by
  rw [cleared, List.map_map]
  rfl

theorem mem_keys_get {N : Nodes} {k : Key} (h : k ∈ N.map (·.1)) : (N.get k).isSome := by
  induction N with
  | nil => cases h
  | cons p N ih =>
    obtain ⟨k', o⟩ := p
    simp only [Nodes.get]
    split
    · rfl
    · rename_i hk
      rcases List.mem_cons.1 h with h | h
      · exact absurd h.symm hk
      · exact ih h

theorem get_mem_keys {N : Nodes} {k : Key} {o : Op} (h : N.get k = some o) : k ∈ N.map (·.1) :=
  List.mem_map.2 ⟨_, get_mem h, rfl⟩

/-- Every operation is inside scopes. -/
theorem NodesOk.in_scopes {N : Nodes} (h : NodesOk N) :
    ∀ (rest r : List Name) (s : Name) (k : Key) (o : Op), (k, o) ∈ N → k.ns = r ++ s :: rest →
      ∃ so, (⟨r, s⟩, so) ∈ N ∧ so.body.kind = .scope := by
  intro rest
  induction rest with
  | nil => intro r s k o hm hk; exact h.parent k o hm r s hk
  | cons x rest ih =>
    intro r s k o hm hk
    obtain ⟨so, h1, _⟩ := ih (r ++ [s]) x k o hm (by simpa using hk)
    exact h.parent _ _ h1 r s rfl

/-- A graph that can be exported gives the operations of its draft. -/
theorem export_some {reg : Registry} {N : Nodes} {es : List Edge} {tpl : String} {d : Diagram}
    (hn : NodesOk N) (h : export_ reg ⟨N, es⟩ tpl = some d) :
    ∃ dr, syncAll N.kind ⟨.dispose, cleared N⟩ (es.filter (validEdge reg N)) = some dr ∧
      SameHeads N dr ∧ dr.nodes.map (·.1) = N.map (·.1) ∧ d.start = dr.start ∧
      (∀ ns n, opAt d.ops ns n = dr.ops ns n) ∧ d.templates = tpl ∧ d.defaultTrace = none ∧
      d.onImplicitError = none := by
  simp only [export_] at h
  obtain ⟨dr, h1, h2⟩ := Option.bind_eq_some_iff.1 h
  obtain ⟨f, h3, h4⟩ := Option.map_eq_some_iff.1 h2
  obtain ⟨hh, hk⟩ := syncAll_frame (cleared_heads N .dispose) h1
  have hk' : dr.nodes.map (·.1) = N.map (·.1) := hk.trans (cleared_keys N)
  have hnd : (dr.nodes.map (·.1)).Nodup := by rw [hk']; exact hn.uniq
  have hperm := sortByDepth_perm dr.nodes
  have hn' : ((sortByDepth dr.nodes).map (·.1)).Nodup := (hperm.map _).nodup_iff.2 hnd
  obtain ⟨f', h5, h6⟩ := build_ok hn' (sortByDepth_sorted dr.nodes) (by
    intro k o hm r s rest hkr
    have hg := get_of_mem hnd (hperm.mem_iff.1 hm)
    obtain ⟨o0, g1, _⟩ := hh k o hg
    obtain ⟨so, g2, g3⟩ := hn.in_scopes rest r s k o0 (get_mem g1) hkr
    have g4 : (⟨r, s⟩ : Key) ∈ dr.nodes.map (·.1) := by
      rw [hk']; exact List.mem_map.2 ⟨_, g2, rfl⟩
    obtain ⟨so', g5⟩ := Option.isSome_iff_exists.1 (mem_keys_get g4)
    obtain ⟨so2, g6, g7⟩ := hh _ _ g5
    rw [get_of_mem hn.uniq g2] at g6
    cases g6
    exact ⟨so', hperm.mem_iff.2 (get_mem g5), (kind_of_head g7).symm.trans g3⟩)
  rw [h3] at h5
  cases h5
  subst h4
  refine ⟨dr, h1, hh, hk', rfl, ?_, rfl, rfl, rfl⟩
  intro ns n
  show opAt f ns n = dr.nodes.get ⟨ns, n⟩
  rw [h6]
  apply Option.ext
  intro o
  rw [get_eq_iff hn', get_eq_iff hnd]
  exact hperm.mem_iff

/-! ### What is exported -/

/-- `BodyOk` up to holes and `clone`. -/
def HolesOk (reg : Registry) (near inside : Name → Option Op) : Body → Prop
  | .unzip l => ∀ b, some b ∈ l → Drawn near b
  | .join s _ next => (∀ l, s = .arr l → ∀ b, some b ∈ l → IsBuffer near b) ∧
      (∀ l, s = .dict l → BuffersOk near (.dict l)) ∧ DrawnOrDispose near next
  | .listen s next => (∀ l, s = .arr l → ∀ b, some b ∈ l → IsBuffer near b) ∧
      (∀ l, s = .dict l → BuffersOk near (.dict l)) ∧ DrawnOrDispose near next
  | .access s next => (∀ l, s = .arr l → ∀ b, some b ∈ l → IsBuffer near b) ∧
      (∀ l, s = .dict l → BuffersOk near (.dict l)) ∧ DrawnOrDispose near next
  | b => BodyOk reg near inside b

section
variable {reg : Registry} {near inside : Name → Option Op}

theorem clear_holes (b : Body) : HolesOk reg near inside b.clear := by
  have h0 : DrawnMap near [] := ⟨.nil, List.forall_mem_nil _⟩
  cases b
  case node => exact ⟨.inr rfl, h0, .inl rfl⟩
  case transform => exact .inr rfl
  case forkClone => exact ⟨.nil, List.forall_mem_nil _⟩
  case unzip => exact fun b h => nomatch h
  case forkResult => exact ⟨.inr rfl, .inr rfl⟩
  case split => exact ⟨h0, List.forall_mem_nil _, nofun, nofun⟩
  case join => exact ⟨(fun l e b h => by cases e; cases h), nofun, .inr rfl⟩
  case listen => exact ⟨(fun l e b h => by cases e; cases h), nofun, .inr rfl⟩
  case access => exact ⟨(fun l e b h => by cases e; cases h), nofun, .inr rfl⟩
  case buffer => trivial
  case streamOut => trivial
  case sect => exact h0
  case scope => exact ⟨.inr rfl, rfl, .inr rfl⟩

theorem DrawnMap.set {l : List (Name × Next)} (h : DrawnMap near l) (x : Name) {t : Next}
    (ht : Drawn near t) : DrawnMap near (setKey l x t) := by
  refine ⟨setKey_nodup _ _ h.1, ?_⟩
  intro p hp
  rcases mem_setKey hp with rfl | hp
  · exact ht
  · exact h.2 p hp

theorem syncOut_holes {kind : EdgeKind} {t : Next} {b b' : Body} (hb : HolesOk reg near inside b)
    (ht : Drawn near t)
    (hs : ∀ s, kind = .stream s → ∃ bu next l x xs, b = .node bu next l ∧ reg bu = some (x :: xs))
    (h : syncOut kind (some t) b = some b') : HolesOk reg near inside b' := by
  have htd : t ≠ .dispose := fun e => by subst e; exact ht
  cases b <;> cases kind <;> first | (cases h; done) | skip
  all_goals first | (cases h; exact hb) | skip
  case node.default => cases h; exact ⟨.inl ht, hb.2.1, hb.2.2⟩
  case node.stream s =>
    cases h
    refine ⟨hb.1, hb.2.1.set _ ht, .inr ?_⟩
    obtain ⟨bu, nx, l, x, xs, e1, e2⟩ := hs s rfl
    cases e1
    exact ⟨x, xs, e2⟩
  case transform.default => cases h; exact .inl ht
  case forkClone.default l =>
    simp only [syncOut, if_true, Option.map_some, Option.some.injEq] at h
    subst h
    split
    · exact hb
    · rename_i hc
      have hc' : t ∉ l := by simpa using hc
      refine ⟨?_, ?_⟩
      · rw [List.nodup_append]
        refine ⟨hb.1, by simp, ?_⟩
        intro a ha c hc2
        rw [List.mem_singleton.1 hc2]
        rintro rfl
        exact hc' ha
      · intro x hx
        rcases List.mem_append.1 hx with hx | hx
        · exact hb.2 x hx
        · rw [List.mem_singleton.1 hx]; exact ht
  case unzip.unzip =>
    cases h
    intro b hm
    rcases mem_pad hm with e | e | e
    · cases e; exact ht
    · cases e
    · exact hb b e
  case forkResult.ok => cases h; exact ⟨.inl ht, hb.2⟩
  case forkResult.err => cases h; exact ⟨hb.1, .inl ht⟩
  case split.splitKey => cases h; exact ⟨hb.1.set _ ht, hb.2⟩
  case split.splitSeq =>
    cases h
    refine ⟨hb.1, ?_, setSeq_last htd hb.2.2.1, hb.2.2.2⟩
    intro x hx
    rcases mem_pad hx with e | e | e
    · subst e; exact .inl ht
    · exact .inr e
    · exact hb.2.1 x e
  case split.splitRemaining =>
    cases h
    exact ⟨hb.1, hb.2.1, hb.2.2.1, fun x hx => by cases hx; exact ht⟩
  case join.default => cases h; exact ⟨hb.1, hb.2.1, .inl ht⟩
  case listen.default => cases h; exact ⟨hb.1, hb.2.1, .inl ht⟩
  case access.default => cases h; exact ⟨hb.1, hb.2.1, .inl ht⟩
  case sect.sect => cases h; exact DrawnMap.set hb _ ht
  case scope.default => cases h; exact ⟨.inl ht, hb.2⟩
  case scope.stream s =>
    obtain ⟨bu, nx, l, x, xs, e1, e2⟩ := hs s rfl
    cases e1

/-- A selection of buffers up to holes. -/
def SelHoles (near : Name → Option Op) (s : Sel) : Prop :=
  (∀ l, s = .arr l → ∀ b, some b ∈ l → IsBuffer near b) ∧
    ∀ l, s = .dict l → BuffersOk near (.dict l)

theorem setBuffer_holes {s s' : Sel} {kind : EdgeKind} {n : Name} (hs : SelHoles near s)
    (hn : IsBuffer near (.op n)) (h : setBuffer s kind n = some s') : SelHoles near s' := by
  have harr : ∀ (l : List (Option Next)) i, (∀ b, some b ∈ l → IsBuffer near b) →
      SelHoles near (.arr (setHole l i (.op n))) := by
    intro l i hl
    refine ⟨?_, nofun⟩
    intro l' e b hm
    cases e
    rcases mem_pad hm with e | e | e
    · cases e; exact hn
    · cases e
    · exact hl b e
  have hdict : ∀ (l : List (Name × Next)) x, (l.map (·.1)).Nodup → (∀ p ∈ l, IsBuffer near p.2) →
      SelHoles near (.dict (setKey l x (.op n))) := by
    intro l x h1 h2
    refine ⟨nofun, ?_⟩
    intro l' e
    cases e
    refine ⟨setKey_ne_nil _ _ _, setKey_nodup _ _ h1, ?_⟩
    intro p hp
    rcases mem_setKey hp with rfl | hp
    · exact hn
    · exact h2 p hp
  cases kind <;> simp only [setBuffer] at h
  all_goals first | (cases h; done) | skip
  · split at h
    · cases h; exact harr _ _ (hs.1 _ rfl)
    · cases h; exact harr _ _ (fun b hb => nomatch hb)
    · cases h
  · split at h
    · cases h; exact hdict _ _ (hs.2 _ rfl).2.1 (hs.2 _ rfl).2.2
    · cases h; exact hdict _ _ .nil (List.forall_mem_nil _)
    · cases h

theorem syncBuffer_holes {kinds : Key → Option Kind} {e : Edge} {id : BufId} {f : Fetch}
    {b b' : Body} (hb : HolesOk reg near inside b)
    (hn : ∀ src, e.source = .op src → kinds src = some .buffer → IsBuffer near (.op src.name))
    (h : syncBuffer kinds e id f b = some b') : HolesOk reg near inside b' := by
  simp only [syncBuffer] at h
  split at h
  · rename_i src hsrc
    split at h
    · rename_i hk
      split at h
      all_goals first | (cases h; done) | skip
      all_goals
        obtain ⟨s', h1, rfl⟩ := Option.map_eq_some_iff.1 h
        have := setBuffer_holes ⟨hb.1, hb.2.1⟩ (hn src hsrc hk) h1
        exact ⟨this.1, this.2, hb.2.2⟩
    · cases h
  · cases h

theorem BodyOk.of_holes {b : Body} (h : HolesOk reg near inside b) (hf : Filled b) :
    BodyOk reg near inside b := by
  have harr : ∀ s, (∀ l, s = .arr l → ∀ b, some b ∈ l → IsBuffer near b) →
      (∀ l, s = .dict l → BuffersOk near (.dict l)) → (∀ l, s = .arr l → none ∉ l) →
      BuffersOk near s := by
    intro s h1 h2 h3
    cases s with
    | arr l =>
      intro t ht
      cases t with
      | none => exact absurd ht (h3 l rfl)
      | some b => exact ⟨b, rfl, h1 l rfl b ht⟩
    | dict l => exact h2 l rfl
  cases b
  case unzip l =>
    intro t ht
    cases t with
    | none => exact absurd ht hf
    | some b => exact ⟨b, rfl, h b ht⟩
  case join => exact ⟨harr _ h.1 h.2.1 hf.1, hf.2, h.2.2⟩
  case listen => exact ⟨harr _ h.1 h.2.1 hf, h.2.2⟩
  case access => exact ⟨harr _ h.1 h.2.1 hf, h.2.2⟩
  all_goals exact h

end

/-! ### Transfer to the exported operations -/

/-- Two views of the operations next to one, with the same types. -/
def SameKinds (a b : Name → Option Op) : Prop :=
  ∀ n, (a n).map (·.body.kind) = (b n).map (·.body.kind)

theorem SameKinds.drawn {a b : Name → Option Op} (h : SameKinds a b) {t : Next}
    (ht : Drawn a t) : Drawn b t := by
  cases t with
  | op n =>
    have h1 : (a n).isSome := ht
    have h2 := h n
    show (b n).isSome
    cases hb : b n with
    | none =>
      rw [hb] at h2
      cases ha : a n with
      | none => rw [ha] at h1; cases h1
      | some o => rw [ha] at h2; cases h2
    | some o => rfl
  | terminate => trivial
  | dispose => exact ht
  | cancel => exact ht
  | inner _ _ => exact ht

theorem SameKinds.single {a b : Name → Option Op} (h : SameKinds a b) {t : Next}
    (ht : DrawnOrDispose a t) : DrawnOrDispose b t := ht.imp h.drawn id

theorem kind_buffer {b : Body} (h : b.kind = .buffer) : b = .buffer := by
  cases b <;> first | rfl | cases h

theorem SameKinds.buffer {a b : Name → Option Op} (h : SameKinds a b) {t : Next}
    (ht : IsBuffer a t) : IsBuffer b t := by
  obtain ⟨n, o, rfl, h1, h2⟩ := ht
  have h3 := h n
  rw [h1] at h3
  cases hb : b n with
  | none => rw [hb] at h3; cases h3
  | some o' =>
    rw [hb] at h3
    simp only [Option.map_some, Option.some.injEq, h2] at h3
    exact ⟨n, o', rfl, hb, kind_buffer h3.symm⟩

theorem SameKinds.buffers {a b : Name → Option Op} (h : SameKinds a b) {s : Sel}
    (hs : BuffersOk a s) : BuffersOk b s := by
  cases s with
  | arr l =>
    intro t ht
    obtain ⟨x, h1, h2⟩ := hs t ht
    exact ⟨x, h1, h.buffer h2⟩
  | dict l => exact ⟨hs.1, hs.2.1, fun p hp => h.buffer (hs.2.2 p hp)⟩

theorem SameKinds.map {a b : Name → Option Op} (h : SameKinds a b) {l : List (Name × Next)}
    (hl : DrawnMap a l) : DrawnMap b l := ⟨hl.1, fun p hp => h.drawn (hl.2 p hp)⟩

theorem SameKinds.body {reg : Registry} {a b i j : Name → Option Op} (h : SameKinds a b)
    (h' : SameKinds i j) {x : Body} (hx : BodyOk reg a i x) : BodyOk reg b j x := by
  cases x
  case node => exact ⟨h.single hx.1, h.map hx.2.1, hx.2.2⟩
  case transform => exact h.single hx
  case forkClone => exact ⟨hx.1, fun t ht => h.drawn (hx.2 t ht)⟩
  case unzip =>
    intro t ht
    obtain ⟨y, h1, h2⟩ := hx t ht
    exact ⟨y, h1, h.drawn h2⟩
  case forkResult => exact ⟨h.single hx.1, h.single hx.2⟩
  case split =>
    exact ⟨h.map hx.1, fun t ht => h.single (hx.2.1 t ht), hx.2.2.1,
      fun t ht => h.drawn (hx.2.2.2 t ht)⟩
  case join => exact ⟨h.buffers hx.1, hx.2.1, h.single hx.2.2⟩
  case listen => exact ⟨h.buffers hx.1, h.single hx.2⟩
  case access => exact ⟨h.buffers hx.1, h.single hx.2⟩
  case buffer => trivial
  case streamOut => trivial
  case sect => exact h.map hx
  case scope => exact ⟨h.single hx.1, hx.2.1, h'.single hx.2.2⟩

/-! ### All edges -/

/-- What holds of a draft while edges that stay in their namespaces are exported. -/
structure DraftOk (reg : Registry) (N : Nodes) (d : Draft) : Prop where
  heads : SameHeads N d
  start : DrawnOrDispose (fun n => N.get ⟨[], n⟩) d.start
  bodies : ∀ k o, d.nodes.get k = some o →
    HolesOk reg (fun n => N.get ⟨k.ns, n⟩) (fun n => N.get ⟨k.inside, n⟩) o.body

/-- The target of an edge that stays in its namespace is drawn there. -/
theorem target_drawn {N : Nodes} {e : Edge} (he : EdgeOk e) {t : Next}
    (h : targetNext N.kind e = some t) : Drawn (fun n => N.get ⟨e.source.ns, n⟩) t := by
  obtain ⟨src, tgt, kind, slot⟩ := e
  obtain ⟨h1, h2⟩ := he
  simp only at h1 h2
  subst h1
  cases tgt with
  | op k =>
    simp only [targetNext] at h
    split at h
    · rename_i hk
      cases h
      show (N.get ⟨src.ns, k.name⟩).isSome
      rw [h2]
      simpa [Nodes.kind, Id.ns] using hk
    · cases h
  | start p => cases h
  | terminate ns => cases h; trivial

theorem DraftOk.step {reg : Registry} {N : Nodes} {d d' : Draft} {e : Edge}
    (hd : DraftOk reg N d) (he : EdgeOk e) (hv : validEdge reg N e = true)
    (h : Step N.kind e d d') : DraftOk reg N d' := by
  refine ⟨hd.heads.step h, ?_, ?_⟩
  · cases h with
    | start hk hs t ht hd' =>
      subst hd'
      have := target_drawn he ht
      rw [hs] at this
      exact .inl this
    | nothing _ _ _ hd' => subst hd'; exact hd.start
    | op k o b _ _ _ hd' => subst hd'; exact hd.start
  · cases h with
    | start hk hs t ht hd' => subst hd'; exact hd.bodies
    | nothing _ _ _ hd' => subst hd'; exact hd.bodies
    | op k o b ho hg hb hd' =>
      subst hd'
      intro j o' hj
      by_cases hjk : j = k
      · subst hjk
        rw [get_put_self b hg] at hj
        cases hj
        have hold := hd.bodies j o hg
        rcases ho with ⟨h1, h2⟩ | ⟨h1, h2 | h2⟩
        · obtain ⟨⟨id, f⟩, hk⟩ := Option.isSome_iff_exists.1 h1
          simp only [syncBody, hk] at hb
          refine syncBuffer_holes hold ?_ hb
          intro src hsrc hkb
          have hns := he.2
          rw [h2, hsrc] at hns
          simp only [Id.ns] at hns
          obtain ⟨so, g1, g2⟩ := Option.map_eq_some_iff.1 hkb
          refine ⟨src.name, so, rfl, ?_, kind_buffer g2⟩
          rw [← hns]
          exact g1
        · have hb' := syncBody_op h1 h2 hb
          cases ht : targetNext N.kind e with
          | none =>
            rw [ht] at hb'
            have : b = o.body := by
              cases hbo : o.body <;> rw [hbo] at hb' <;> simp only [syncOut] at hb'
              all_goals (repeat' split at hb')
              all_goals first | (cases hb'; rfl) | (cases hb'; done)
            rw [this]
            exact hold
          | some t =>
            rw [ht] at hb'
            have hdr := target_drawn he ht
            rw [h2] at hdr
            refine syncOut_holes hold hdr ?_ hb'
            intro s hs
            obtain ⟨k', o2, bu, nx, l, x, xs, e1, e2, e3, e4⟩ := valid_stream hv hs
            rw [h2] at e1
            cases e1
            obtain ⟨o3, q1, q2⟩ := hd.heads j o hg
            rw [e2] at q1
            cases q1
            rw [e3] at q2
            cases hbo : o.body <;> rw [hbo] at q2 <;>
              first | (cases q2; done) | skip
            have : bu = _ := congrArg Prod.snd q2
            simp only [Body.head] at this
            subst this
            exact ⟨_, _, _, x, xs, rfl, e4⟩
        · simp only [syncBody, h1, h2] at hb
          split at hb
          · rename_i nx st s0 hbo
            obtain ⟨t, ht, rfl⟩ := Option.map_eq_some_iff.1 hb
            rw [hbo] at hold
            have hdr := target_drawn he ht
            rw [h2] at hdr
            exact ⟨hold.1, hold.2.1, .inl hdr⟩
          · cases hb
      · rw [get_put_ne b hjk] at hj
        exact hd.bodies j o' hj

theorem DraftOk.all {reg : Registry} {N : Nodes} {es : List Edge} {d d' : Draft}
    (hd : DraftOk reg N d) (he : ∀ e ∈ es, EdgeOk e) (hv : ∀ e ∈ es, validEdge reg N e = true)
    (h : syncAll N.kind d es = some d') : DraftOk reg N d' := by
  induction es generalizing d with
  | nil => cases h; exact hd
  | cons e es ih =>
    obtain ⟨d1, h1, h2⟩ := Option.bind_eq_some_iff.1 h
    exact ih (hd.step (he e (List.mem_cons_self ..)) (hv e (List.mem_cons_self ..)) (step_of h1))
      (fun e hx => he e (List.mem_cons_of_mem _ hx)) (fun e hx => hv e (List.mem_cons_of_mem _ hx)) h2

end Verif.Editor
