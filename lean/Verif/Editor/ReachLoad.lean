import Verif.Editor.ReachEdges
/-
All edges of a diagram that can be drawn. For C128.
-/
namespace Verif.Editor

section
variable {N : Nodes}

/-- The edges of an operation to its targets, where it has one output for all of them. -/
theorem good_many {k : Key} {o : Op} (hk : N.get k = some o) (hm : o.body.kind ∈ manyKinds)
    {kd kd' : EdgeKind} (h1 : kd.handle = .plain) {t t' : Next} (hne : t ≠ t')
    (ht : NotInner t) (ht' : NotInner t') {xs ys : List Edge}
    (hx : edgeTo N k.ns (.op k) kd t = some xs) (hy : edgeTo N k.ns (.op k) kd' t' = some ys) :
    ∀ x ∈ xs, ∀ y ∈ ys, ¬ Clash N x y := by
  intro x hxm y hym
  obtain ⟨_, e1, e2, _, e4⟩ := edgeTo_some hx hxm
  obtain ⟨_, _, _, _, e4'⟩ := edgeTo_some hy hym
  refine nc_many e1 (x := o.body.kind) (by simp [Nodes.kind, hk]) hm (by rw [e2, h1]; simp) ?_
  intro _ e
  rw [← e] at e4'
  exact hne (from_inj e4 e4' ht ht')

theorem op_good {reg : Registry} {k : Key} {o : Op} (hk : N.get k = some o)
    (h : BodyOk reg (fun n => N.get ⟨k.ns, n⟩) (fun n => N.get ⟨k.inside, n⟩) o.body)
    (hs : Simple (fun n => N.get ⟨k.ns, n⟩) (fun n => N.get ⟨k.inside, n⟩) o.body) {es : List Edge}
    (he : opEdges N k o.body = some es) : Good N es := by
  obtain ⟨extra, b⟩ := o
  have hkind : N.kind k = some b.kind := by simp [Nodes.kind, hk]
  have hsrc : Exists N (.op k) := ⟨_, hk⟩
  have one : ∀ {kd : EdgeKind} {t : Next} {xs : List Edge}, kd.buffer? = none →
      (∀ i, kd = .unzip i → i = 0) → allowedFrom b.kind kd = true → DrawnOrDispose (fun n => N.get ⟨k.ns, n⟩) t →
      Fair (fun n => N.get ⟨k.ns, n⟩) t → edgeTo N k.ns (.op k) kd t = some xs → Good N xs := by
    intro kd t xs h1 hu h2 h3 h4 h5
    exact good_edgeTo (src := .op k) h1 hu (fun _ => by simp only [Allowed]; exact ⟨_, hkind, h2⟩) hsrc h3
      h4 h5
  have withBuffers : ∀ {s : Sel} {next : Next}, b.kind ∈ [Kind.join, .listen, .access] →
      allowedFrom b.kind .default = true → BuffersOk (fun n => N.get ⟨k.ns, n⟩) s → s.Apart →
      DrawnOrDispose (fun n => N.get ⟨k.ns, n⟩) next → Fair (fun n => N.get ⟨k.ns, n⟩) next →
      andThen (bufferEdges N k b s) (edgeTo N k.ns (.op k) .default next) = some es → Good N es := by
    intro s next h1 h2 h3 h4 h5 h6 h7
    obtain ⟨x, y, hx, hy, rfl⟩ := andThen_some h7
    obtain ⟨g1, g2⟩ := good_buffers hk h1 h3 h4 hx
    refine g1.append (one rfl (by nofun) h2 h5 h6 hy) ?_
    intro e he e' he'
    obtain ⟨k', q1, q2⟩ := g2 e he
    obtain ⟨_, q3, _⟩ := edgeTo_some hy he'
    refine nc_source fun q => ?_
    rw [q1, q3] at q
    cases q
    rw [hkind, Option.some.injEq] at q2
    rw [q2] at h1
    revert h1; decide
  simp only at h hs he
  cases b with
  | buffer => cases he; exact .nil
  | streamOut => cases he; exact .nil
  | access s next => exact withBuffers (by simp [Body.kind]) rfl h.1 hs.1 h.2 hs.2 he
  | join s c next => exact withBuffers (by simp [Body.kind]) rfl h.1 hs.1 h.2.2 hs.2 he
  | listen s next => exact withBuffers (by simp [Body.kind]) rfl h.1 hs.1 h.2 hs.2 he
  | transform next => exact one rfl (by nofun) rfl h hs he
  | node builder next streams =>
    obtain ⟨x, y, hx, hy, rfl⟩ := andThen_some he
    refine (one rfl (by nofun) rfl h.1 hs.1 hx).append (Good.gather hy ?_ ?_) ?_
    · rintro ⟨s, t⟩ hm xs hxs
      exact one rfl (by nofun) rfl (.inl (h.2.1.2 _ hm)) (hs.2.1 _ hm) hxs
    · have hl := hs.2.2
      match streams, hl with
      | [], _ => exact .nil
      | [a], _ => exact List.pairwise_singleton ..
      | _ :: _ :: _, hl => simp only [List.length_cons] at hl; omega
    · intro e he e' he'
      obtain ⟨_, _, q1, _⟩ := edgeTo_some hx he
      obtain ⟨⟨s, t⟩, _, xs, hxs, hm⟩ := mem_gather hy he'
      obtain ⟨_, _, q2, _⟩ := edgeTo_some hxs hm
      exact nc_handle (by rw [q1, q2]; simp [EdgeKind.handle])
  | forkClone l =>
    refine Good.gather he ?_ ?_
    · intro t hm xs hxs
      exact one rfl (by nofun) rfl (.inl (h.2 t hm)) (hs t hm) hxs
    · refine (List.Pairwise.and_mem.1 h.1).imp ?_
      rintro t t' ⟨hm, hm', hne⟩ xs ys hx hy
      exact good_many hk (by simp [Body.kind, manyKinds]) rfl hne (h.2 t hm).notInner
        (h.2 t' hm').notInner hx hy
  | unzip l =>
    refine Good.gather he ?_ ?_
    · rintro ⟨i, t⟩ hm xs hxs
      obtain ⟨b, rfl, hb⟩ := h t (entries_mem hm)
      refine one rfl ?_ rfl (.inl hb) (hs.2 b (entries_mem hm)) hxs
      intro j hj
      cases hj
      match l, hs.1, hm with
      | [a], _, hm =>
        simp only [entries, List.mem_singleton, Prod.mk.injEq] at hm
        exact hm.1
      | _ :: _ :: _, hl, _ => simp only [List.length_cons] at hl; omega
    · match l, hs.1 with
      | [], _ => exact .nil
      | [a], _ => exact List.pairwise_singleton ..
      | _ :: _ :: _, hl => simp only [List.length_cons] at hl; omega
  | forkResult ok err =>
    obtain ⟨x, y, hx, hy, rfl⟩ := andThen_some he
    refine (one rfl (by nofun) rfl h.1 hs.1 hx).append (one rfl (by nofun) rfl h.2 hs.2 hy) ?_
    intro e he e' he'
    obtain ⟨_, _, q1, _⟩ := edgeTo_some hx he
    obtain ⟨_, _, q2, _⟩ := edgeTo_some hy he'
    exact nc_handle (by rw [q1, q2]; simp [EdgeKind.handle])
  | sect connect =>
    refine Good.gather he ?_ ?_
    · rintro ⟨s, t⟩ hm xs hxs
      exact one rfl (by nofun) rfl (.inl (h.2 _ hm)) (hs.2 _ hm) hxs
    · refine (List.Pairwise.and_mem.1 (List.pairwise_map.1 hs.1)).imp ?_
      rintro ⟨s, t⟩ ⟨s', t'⟩ ⟨hm, hm', hne⟩ xs ys hx hy
      exact good_many (kd := .sect s) (kd' := .sect s') hk (by simp [Body.kind, manyKinds]) rfl hne
        (h.2 _ hm).notInner (h.2 _ hm').notInner hx hy
  | scope next streams start =>
    obtain ⟨x, y, hx, hy, rfl⟩ := andThen_some he
    obtain ⟨u, v, hu, hv, rfl⟩ := andThen_some hy
    obtain ⟨h1, h2, h3⟩ := h
    subst h2
    cases hu
    refine (one rfl (by nofun) rfl h1 hs.1 hx).append ?_ ?_
    · rw [List.nil_append]
      exact good_edgeTo (src := .start (some k)) (kd := .default) rfl nofun (fun _ => by simp only [Allowed])
        hkind h3 hs.2 hv
    · intro e he e' he'
      obtain ⟨_, q1, _⟩ := edgeTo_some hx he
      obtain ⟨_, q2, _⟩ := edgeTo_some hv he'
      exact nc_source (by rw [q1, q2]; simp)
  | split keyed seq rem =>
    obtain ⟨x, yz, hx, hyz, rfl⟩ := andThen_some he
    obtain ⟨y, z, hy, hz, rfl⟩ := andThen_some hyz
    obtain ⟨h1, h2, _, h4⟩ := h
    obtain ⟨hn, hf⟩ := hs
    have hmany : (Body.split keyed seq rem).kind ∈ manyKinds := by simp [Body.kind, manyKinds]
    rw [List.append_assoc, List.nodup_append, List.nodup_append] at hn
    obtain ⟨n1, ⟨n2, _, n4⟩, n5⟩ := hn
    have notDispose : ∀ {i t xs} {e : Edge}, edgeTo N k.ns (.op k) (.splitSeq i) t = some xs → e ∈ xs →
        t ≠ .dispose := by
      rintro i t xs e hxs hm rfl
      obtain ⟨_, _, _, _, q⟩ := edgeTo_some hxs hm
      cases q
    have inSeq : ∀ {t}, t ∈ seq → t ≠ .dispose → t ∈ seq.filter (· ≠ .dispose) := by
      intro t h1 h2
      exact List.mem_filter.2 ⟨h1, by simpa using h2⟩
    have g1 : Good N x := by
      refine Good.gather hx ?_ ?_
      · rintro ⟨s, t⟩ hm xs hxs
        exact one rfl (by nofun) rfl (.inl (h1.2 _ hm))
          (hf _ (List.mem_append_left _ (List.mem_append_left _ (List.mem_map.2 ⟨_, hm, rfl⟩)))) hxs
      · refine (List.Pairwise.and_mem.1 (List.pairwise_map.1 n1)).imp ?_
        rintro ⟨s, t⟩ ⟨s', t'⟩ ⟨hm, hm', hne⟩ xs ys hx hy
        exact good_many (kd := .splitKey s) (kd' := .splitKey s') hk hmany rfl hne
          (h1.2 _ hm).notInner (h1.2 _ hm').notInner hx hy
    have g2 : Good N y := by
      refine Good.gather hy ?_ ?_
      · rintro ⟨i, t⟩ hm xs hxs
        exact one rfl (by nofun) rfl (h2 _ (entries_mem hm))
          (hf _ (List.mem_append_left _ (List.mem_append_right _ (entries_mem hm)))) hxs
      · have hp : seq.Pairwise fun t t' => t ≠ .dispose → t' ≠ .dispose → t ≠ t' := by
          refine (List.pairwise_filter.1 n2).imp ?_
          intro t t' h h1 h2
          exact h (by simpa using h1) (by simpa using h2)
        refine (List.Pairwise.and_mem.1 (entries_pairwise hp 0)).imp ?_
        rintro ⟨i, t⟩ ⟨j, t'⟩ ⟨hm, hm', hne⟩ xs ys hx hy e he e' he'
        exact good_many (kd := .splitSeq i) (kd' := .splitSeq j) hk hmany rfl
          (hne (notDispose hx he) (notDispose hy he')) (h2 _ (entries_mem hm)).notInner
          (h2 _ (entries_mem hm')).notInner hx hy e he e' he'
    have hrem : ∀ e ∈ z, ∃ t zs, rem = some t ∧ edgeTo N k.ns (.op k) .splitRemaining t = some zs ∧
        e ∈ zs := by
      intro e hm
      clear he hyz
      cases rem with
      | none => cases hz; cases hm
      | some t => exact ⟨t, z, rfl, hz, hm⟩
    have g3 : Good N z := by
      cases rem with
      | none => cases hz; exact .nil
      | some t => exact one rfl (by nofun) rfl (.inl (h4 t rfl)) (hf t (by simp)) hz
    refine g1.append (g2.append g3 ?_) ?_
    · intro e he e' he'
      obtain ⟨⟨i, t⟩, hm, xs, hxs, hex⟩ := mem_gather hy he
      obtain ⟨t', zs, hr, hzs, hez⟩ := hrem e' he'
      refine good_many (kd := .splitSeq i) (kd' := .splitRemaining) hk hmany rfl ?_
        (h2 _ (entries_mem hm)).notInner (h4 t' hr).notInner hxs hzs e hex e' hez
      exact n4 _ (inSeq (entries_mem hm) (notDispose hxs hex)) _ (by simp [hr])
    · intro e he e' he'
      obtain ⟨⟨s, t⟩, hm, xs, hxs, hex⟩ := mem_gather hx he
      have hin : t ∈ keyed.map (·.2) := List.mem_map.2 ⟨_, hm, rfl⟩
      rcases List.mem_append.1 he' with he' | he'
      · obtain ⟨⟨i, t'⟩, hm', ys, hys, hey⟩ := mem_gather hy he'
        refine good_many (kd := .splitKey s) (kd' := .splitSeq i) hk hmany rfl ?_
          (h1.2 _ hm).notInner (h2 _ (entries_mem hm')).notInner hxs hys e hex e' hey
        exact n5 _ hin _ (List.mem_append_left _ (inSeq (entries_mem hm') (notDispose hys hey)))
      · obtain ⟨t', zs, hr, hzs, hez⟩ := hrem e' he'
        refine good_many (kd := .splitKey s) (kd' := .splitRemaining) hk hmany rfl ?_
          (h1.2 _ hm).notInner (h4 t' hr).notInner hxs hzs e hex e' hez
        exact n5 _ hin _ (List.mem_append_right _ (by simp [hr]))

end

/-- The edges of two operations. -/
theorem owned_apart {N : Nodes} {k k' : Key} (hne : k ≠ k') {e e' : Edge} (he : Owned k e)
    (he' : Owned k' e') (hf : Fits N e) (hf' : Fits N e') : ¬ Clash N e e' := by
  have src : ∀ {e : Edge}, Fits N e → e.kind.buffer?.isSome = true →
      ∃ q, e.source = .op q ∧ N.kind q = some .buffer := by
    intro e hf hb
    have ha := hf.allowed
    unfold Allowed at ha
    split at ha
    · rename_i q hq
      obtain ⟨x, h1, h2⟩ := ha
      refine ⟨q, hq, ?_⟩
      rw [h1]
      cases hk : e.kind <;> rw [hk] at h2 hb <;> cases x <;>
        first | rfl | (exfalso; simp [allowedFrom] at h2; done) | (exfalso; simp [EdgeKind.buffer?] at hb; done)
    · rw [ha] at hb; cases hb
    · exact ha.elim
  have nosrc : ∀ {e : Edge}, Fits N e → e.kind.buffer? = none → ∀ q, e.source = .op q →
      N.kind q ≠ some .buffer := by
    intro e hf hb q hq hk
    have ha := hf.allowed
    simp only [Allowed, hq] at ha
    obtain ⟨x, h1, h2⟩ := ha
    rw [hk, Option.some.injEq] at h1
    subst h1
    cases hk : e.kind <;> rw [hk] at h2 hb <;>
      first | (simp [allowedFrom] at h2; done) | (simp [EdgeKind.buffer?] at hb; done)
  rcases he with ⟨hb, ht⟩ | ⟨hb, hs⟩ <;> rcases he' with ⟨hb', ht'⟩ | ⟨hb', hs'⟩
  · obtain ⟨q, h1, h2⟩ := src hf hb
    refine nc_many h1 h2 (by simp [manyKinds]) ?_ ?_
    · cases hk : e.kind <;> rw [hk] at hb <;>
        first | (simp [EdgeKind.handle]; done) | (simp [EdgeKind.buffer?] at hb; done)
    · intro _ h
      rw [ht, ht'] at h
      cases h
      exact hne rfl
  · obtain ⟨q, h1, h2⟩ := src hf hb
    exact nc_source fun h => nosrc hf' hb' q (h ▸ h1) h2
  · obtain ⟨q, h1, h2⟩ := src hf' hb'
    exact nc_source fun h => nosrc hf hb q (h.trans h1) h2
  · refine nc_source fun h => hne ?_
    rcases hs with hs | hs <;> rcases hs' with hs' | hs' <;> rw [hs, hs'] at h <;> cases h <;> rfl

theorem nodes_good {N : Nodes} (l : Nodes) (hl : (l.map (·.1)).Nodup)
    (h : ∀ k o, (k, o) ∈ l → ∃ xs, opEdges N k o.body = some xs ∧ Good N xs ∧ ∀ e ∈ xs, Owned k e)
    {es : List Edge} (he : gather (fun (k, o) => opEdges N k o.body) l = some es) : Good N es := by
  refine Good.gather he ?_ ?_
  · rintro ⟨k, o⟩ hm xs hx
    obtain ⟨ys, h1, h2, _⟩ := h k o hm
    simp only at hx
    rw [h1] at hx; cases hx
    exact h2
  · refine (List.Pairwise.and_mem.1 (List.pairwise_map.1 hl)).imp ?_
    rintro ⟨k, o⟩ ⟨k', o'⟩ ⟨hm, hm', hne⟩ xs ys hx hy e he e' he'
    obtain ⟨zs, h1, h2, h3⟩ := h k o hm
    obtain ⟨zs', h1', h2', h3'⟩ := h k' o' hm'
    simp only at hx hy
    rw [h1] at hx; cases hx
    rw [h1'] at hy; cases hy
    exact owned_apart hne (h3 e he) (h3' e' he') (h2.1 e he) (h2'.1 e' he')

/-- The edges of a diagram can be drawn one after the other. -/
theorem load_good {reg : Registry} {d : Diagram} (h : Editable reg d) (hs : ByHand d) {g : Graph}
    (hg : load d = some g) : g.nodes = flatten [] d.ops ∧ Good (flatten [] d.ops) g.edges := by
  simp only [load, Option.map_eq_some_iff] at hg
  obtain ⟨es, h1, rfl⟩ := hg
  refine ⟨rfl, ?_⟩
  have hn := flatten_nodup h.uniq []
  have near : ∀ ns, (fun n => (flatten [] d.ops).get ⟨ns, n⟩) = opAt d.ops ns := by
    intro ns; funext n; exact get_flatten h.uniq _
  have hall : ∀ k o, (k, o) ∈ flatten [] d.ops → ∃ xs, opEdges (flatten [] d.ops) k o.body = some xs ∧
      Good (flatten [] d.ops) xs ∧ ∀ e ∈ xs, Owned k e := by
    intro k o hm
    obtain ⟨xs, p1, p2, _⟩ := piece_all h hm
    have hk := get_of_mem hn hm
    have ho := hk
    rw [get_flatten h.uniq] at ho
    refine ⟨xs, p1, op_good (reg := reg) hk ?_ ?_ p1, p2⟩
    · rw [near, near]; exact h.bodies _ _ _ ho
    · rw [near, near]; exact hs.bodies _ _ _ ho
  have hes := nodes_good _ hn hall h1
  refine Good.append ?_ hes ?_
  · have hd := h.start
    have hf := hs.start
    cases ht : d.start with
    | op n =>
      rw [ht] at hd hf
      rcases hd with hd | hd
      · obtain ⟨o, ho⟩ := Option.isSome_iff_exists.1 hd
        have hg : (flatten [] d.ops).get ⟨[], n⟩ = some o := by rw [get_flatten h.uniq]; exact ho
        simp only [rootEdge, hg, Option.isSome_some, if_true]
        refine ⟨?_, List.pairwise_singleton ..⟩
        intro e he
        rw [List.mem_singleton] at he
        subst he
        refine ⟨rfl, trivial, ⟨o, hg⟩, ⟨o.body.kind, by simp [Nodes.kind, hg], ?_⟩, rfl, nofun, nofun⟩
        simp only [EdgeKind.buffer?, Option.isSome_none, Bool.false_eq_true, if_false]
        exact hf o ho
      · cases hd
    | terminate =>
      refine ⟨?_, List.pairwise_singleton ..⟩
      intro e he
      simp only [rootEdge, List.mem_singleton] at he
      subst he
      exact ⟨rfl, trivial, rfl, rfl, rfl, nofun, nofun⟩
    | dispose => exact .nil
    | cancel => exact .nil
    | inner a b => exact .nil
  · intro x hx y hy
    have hxs : x.source = .start none := by
      unfold rootEdge at hx
      split at hx
      · split at hx
        · rw [List.mem_singleton] at hx; subst hx; rfl
        · cases hx
      · rw [List.mem_singleton] at hx; subst hx; rfl
      all_goals cases hx
    obtain ⟨⟨k, o⟩, hm, xs, q1, q2⟩ := mem_gather h1 hy
    obtain ⟨zs, r1, r2, r3⟩ := hall k o hm
    simp only at q1
    rw [r1] at q1; cases q1
    refine nc_source fun e => ?_
    rcases r3 y q2 with ⟨hb, _⟩ | ⟨_, hs' | hs'⟩
    · have ha := (r2.1 y q2).allowed
      rw [hxs] at e
      simp only [Allowed, ← e] at ha
      rw [ha] at hb
      cases hb
    · rw [hxs, hs'] at e; cases e
    · rw [hxs, hs'] at e; cases e

end Verif.Editor
