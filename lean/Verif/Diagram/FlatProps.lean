import Verif.Diagram.FlatBuild
import Verif.Diagram.Witness

/-
C70, C72 and C95, about diagrams whose operations declare the types of their inputs and outputs: when
exactly they can be built.
-/
namespace Verif.Diagram

variable {reg : Registry} {io : Io} {d : Diagram}

theorem lookup_iff_mem {α β : Type} [BEq α] [LawfulBEq α] {l : List (α × β)} {k : α} {v : β}
    (h : (l.map (·.1)).Nodup) : l.lookup k = some v ↔ (k, v) ∈ l := by
  refine ⟨mem_of_lookup, fun hm => ?_⟩
  cases hl : l.lookup k with
  | none =>
    induction l with
    | nil => cases hm
    | cons e rest ih =>
      rw [List.map_cons, List.nodup_cons] at h
      rw [List.lookup_cons] at hl
      split at hl
      · cases hl
      · rename_i hk
        rcases List.mem_cons.1 hm with rfl | hm
        · simp at hk
        · exact (ih h.2 hm hl)
  | some w => rw [lookup_of_nodup h hm (mem_of_lookup hl)]

/-- What a name of the diagram leads to. -/
theorem allTargets_next {n : Next} {t : Target} :
    (Ref.ofNext n, t) ∈ allTargets io d ↔
      (n = .terminate ∧ t = ⟨.slot io.response 0 [], 0⟩) ∨ (n = .dispose ∧ t = ⟨.dispose, 0⟩) ∨
      (n = .cancel ∧ t = ⟨.cancel 0 [], 0⟩) ∨
      ∃ e, e ∈ d.ops ∧ n = .name e.1 ∧ t = ⟨.slot (e.2.takes?.getD 0) 0 [], 0⟩ := by
  simp only [allTargets, List.mem_cons, List.mem_append, List.mem_map, Prod.mk.injEq]
  cases n <;> simp [Ref.ofNext]
  constructor
  · rintro ⟨a, b, h1, h2, h3⟩; exact ⟨a, b, h1, h2.symm, h3.symm⟩
  · rintro ⟨a, b, h1, h2, h3⟩; exact ⟨a, b, h1, h2.symm, h3.symm⟩

theorem suits_iff (h : d.Declared) (hn : ((allTargets io d).map (·.1)).Nodup) {L : Look}
    (hL : ∀ r, L r = (allTargets io d).lookup r) (n : Next) (ty : Ty) :
    LTakes reg L (Ref.ofNext n) ty ↔ d.Suits reg io n ty := by
  unfold LTakes
  constructor
  · rintro ⟨t, h1, h2⟩
    rw [hL, lookup_iff_mem hn, allTargets_next] at h1
    rcases h1 with ⟨rfl, rfl⟩ | ⟨rfl, rfl⟩ | ⟨rfl, rfl⟩ | ⟨e, he, rfl, rfl⟩
    · exact .inr (.inr ⟨_, .inl ⟨rfl, rfl⟩, h2⟩)
    · exact .inl rfl
    · exact .inr (.inl rfl)
    · obtain ⟨t, ht⟩ := Option.isSome_iff_exists.1 (h e.1 e.2 he)
      rw [ht] at h2
      exact .inr (.inr ⟨t, .inr ⟨e.1, e.2, rfl, he, ht⟩, h2⟩)
  · intro hs
    rcases hs with rfl | rfl | ⟨t, ⟨rfl, rfl⟩ | ⟨id, s, rfl, hm, ht⟩, hf⟩
    · exact ⟨⟨.dispose, 0⟩, by rw [hL, lookup_iff_mem hn, allTargets_next]; simp, trivial⟩
    · exact ⟨⟨.cancel 0 [], 0⟩, by rw [hL, lookup_iff_mem hn, allTargets_next]; simp, trivial⟩
    · exact ⟨⟨.slot io.response 0 [], 0⟩, by
        rw [hL, lookup_iff_mem hn, allTargets_next]; simp, hf⟩
    · refine ⟨⟨.slot t 0 [], 0⟩, ?_, hf⟩
      rw [hL, lookup_iff_mem hn, allTargets_next]
      exact .inr (.inr (.inr ⟨(id, s), hm, rfl, by simp [ht]⟩))

theorem converts_iff (h : d.Declared) (hn : ((allTargets io d).map (·.1)).Nodup) {L : Look}
    (hL : ∀ r, L r = (allTargets io d).lookup r) (n : Next) (ty : Ty) :
    LTurns reg L (Ref.ofNext n) ty ↔ d.Converts reg io n ty := by
  unfold LTurns
  constructor
  · rintro ⟨t, h1, h2⟩
    rw [hL, lookup_iff_mem hn, allTargets_next] at h1
    rcases h1 with ⟨rfl, rfl⟩ | ⟨rfl, rfl⟩ | ⟨rfl, rfl⟩ | ⟨e, he, rfl, rfl⟩
    · exact .inr ⟨_, .inl ⟨rfl, rfl⟩, h2⟩
    · exact h2.elim
    · refine .inl ⟨rfl, ?_, fun e => h2.1 (.inr e), h2.2⟩
      cases hs : reg.str ty with
      | false => rfl
      | true => exact absurd (.inl hs) h2.1
    · obtain ⟨t, ht⟩ := Option.isSome_iff_exists.1 (h e.1 e.2 he)
      rw [ht] at h2
      exact .inr ⟨t, .inr ⟨e.1, e.2, rfl, he, ht⟩, h2⟩
  · intro hs
    rcases hs with ⟨rfl, h1, h2, h3⟩ | ⟨t, ⟨rfl, rfl⟩ | ⟨id, s, rfl, hm, ht⟩, hf⟩
    · refine ⟨⟨.cancel 0 [], 0⟩, by rw [hL, lookup_iff_mem hn, allTargets_next]; simp, ?_, h3⟩
      rintro (e | e)
      · rw [h1] at e; cases e
      · exact h2 e
    · exact ⟨⟨.slot io.response 0 [], 0⟩, by
        rw [hL, lookup_iff_mem hn, allTargets_next]; simp, hf⟩
    · refine ⟨⟨.slot t 0 [], 0⟩, ?_, hf⟩
      rw [hL, lookup_iff_mem hn, allTargets_next]
      exact .inr (.inr (.inr ⟨(id, s), hm, rfl, by simp [ht]⟩))

theorem errRef_next (d : Diagram) : d.errRef = Ref.ofNext d.errNext := by
  unfold Diagram.errRef Diagram.errNext
  cases d.onErr <;> rfl

/-- The outputs that are made are those that the diagram says. -/
theorem sends_iff {r : Ref} {ty : Ty} :
    (∃ sc, Act.out r ty sc ∈ allActs reg io d) ↔
      ∃ n, r = Ref.ofNext n ∧ d.Sends reg io n ty := by
  unfold allActs
  constructor
  · rintro ⟨sc, hm⟩
    rcases List.mem_append.1 hm with hm | hm
    · simp [builtins] at hm
      exact ⟨_, hm.1, .inl ⟨rfl, hm.2.1⟩⟩
    · obtain ⟨e, he, hm⟩ := List.mem_flatMap.1 hm
      obtain ⟨id, s⟩ := e
      cases s with
      | node i o n ss =>
        simp [declActs] at hm
        rcases hm with ⟨h1, h2, h3⟩ | ⟨a, b, h1, h2, h3, h4⟩
        · exact ⟨n, h1, .inr ⟨id, _, he, .inl ⟨rfl, h2⟩⟩⟩
        · subst h3
          exact ⟨b, h2.symm, .inr ⟨id, _, he, .inr h1⟩⟩
      | transform n oe =>
        simp [declActs] at hm
        rcases hm with ⟨h1, h2, h3⟩ | ⟨h1, h2, h3⟩
        · refine ⟨oe.getD d.errNext, ?_, .inr ⟨id, _, he, .inr ⟨rfl, h2⟩⟩⟩
          rw [h1, errRef_next]
          cases oe <;> rfl
        · exact ⟨n, h1, .inr ⟨id, _, he, .inl ⟨rfl, h2⟩⟩⟩
      | _ => simp [declActs] at hm
  · rintro ⟨n, rfl, hs⟩
    rcases hs with ⟨rfl, rfl⟩ | ⟨id, s, he, hs⟩
    · exact ⟨0, List.mem_append_left _ (by simp [builtins])⟩
    · refine ⟨0, List.mem_append_right _ (List.mem_flatMap.2 ⟨(id, s), he, ?_⟩)⟩
      cases s with
      | node i o nx ss =>
        rcases hs with ⟨rfl, rfl⟩ | hs
        · simp [declActs]
        · simp only [declActs, List.mem_cons, List.mem_map]
          exact .inr (.inr ⟨_, hs, rfl⟩)
      | transform nx oe =>
        rcases hs with ⟨rfl, rfl⟩ | ⟨rfl, rfl⟩
        · simp [declActs]
        · rw [errRef_next]
          cases oe <;> simp [declActs]
      | _ => exact hs.elim

/-- C95: a diagram of nodes, transforms and JSON buffers can be built exactly if everything that
is sent suits the place that it is sent to. -/
theorem C95_builds (reg : Registry) (io : Io) (ord : Order) (max : Nat) (d : Diagram)
    (hd : d.Declared) (hops : (d.ops.map (·.1)).Nodup) (hio : (io.streams.map (·.1)).Nodup)
    (hord : Drains ord) (hmax : 4 ≤ max) :
    (∃ s, create reg io ord max d = .ok s) ↔ d.WellTyped reg io := by
  obtain ⟨m, rfl⟩ : ∃ m, max = (m + 3) + 1 := ⟨max - 4, by omega⟩
  obtain ⟨s1, progress, hA, hneed, hcan⟩ := create_decl (reg := reg) (io := io) (ord := ord)
    (max := m + 3) hd hops hio
  have hkeys := allTargets_keys (d := d) hops hio
  have hT : s1.c.targets = allTargets io d := by
    rw [hA.targets, tg_all hd]; rfl
  have hL : ∀ r, s1.look r = (allTargets io d).lookup r := fun r => by
    show s1.c.targets.lookup r = _
    rw [hT]
  have hplain : ∀ e, e ∈ allTargets io d →
      e.2.conn.Sound reg ∧ e.2.conn.convs = [] := by
    intro e he
    simp only [allTargets, List.mem_cons, List.mem_append, List.mem_map] at he
    rcases he with rfl | ⟨x, _, rfl⟩ | rfl | rfl | ⟨x, _, rfl⟩ <;>
      simp [Conn.Sound, Conn.convs]
  have hfine : s1.Fine reg := by
    refine ⟨fun r t hr => ?_, hA.filled (fun e he => by cases he), fun e he => ?_⟩
    · rw [hL] at hr
      exact (hplain _ (mem_of_lookup hr)).1
    · rw [hT] at he
      exact (hplain _ he).1.plain
  have hnot : ¬ LTurned reg s1.look := by
    rintro ⟨r, t, x, h1, h2, _⟩
    rw [hL] at h1
    rw [(hplain _ (mem_of_lookup h1)).2] at h2
    cases h2
  have hfrom : ∀ e, e ∈ flat s1.c.outs → ∃ n, e.2 = Ref.ofNext n ∧ d.Sends reg io n e.1.ty := by
    intro e he
    rcases hA.from_ e.1 e.2 he with h | h
    · simp [St.empty, flat] at h
    · exact sends_iff.1 h
  have hto : ∀ n ty, d.Sends reg io n ty → ∃ o : Out, o.ty = ty ∧
      (o, Ref.ofNext n) ∈ flat s1.c.outs := by
    intro n ty hs
    obtain ⟨sc, hm⟩ := (sends_iff (reg := reg) (io := io) (d := d)).2 ⟨n, rfl, hs⟩
    exact hA.outs _ _ _ hm
  constructor
  · rintro ⟨s, hs⟩
    obtain ⟨s2, p2, l2, hi⟩ := hneed s hs
    obtain ⟨b1, b2, b3, b4, b5, b6⟩ := inner_needs hord hfine (fun h => absurd h hnot) hi
    refine ⟨fun n ty hs => ?_, ?_⟩
    · obtain ⟨o, rfl, ho⟩ := hto n ty hs
      exact (suits_iff hd hkeys hL n _).1 (b1 _ ho)
    · rintro ⟨n, ty, hs, hc⟩
      obtain ⟨o, rfl, ho⟩ := hto n ty hs
      obtain ⟨t, h1, h2⟩ := b2.turns.2 ((converts_iff hd hkeys hL n _).2 hc)
      have := b5 ⟨_, t, o.ty, h1, b6 _ ho t h1 h2, h2⟩
      rw [errRef_next] at this
      exact (suits_iff hd hkeys hL _ _).1 this
  · rintro ⟨hw, he⟩
    obtain ⟨o, _, ho⟩ := hto d.start io.request (.inl ⟨rfl, rfl⟩)
    obtain ⟨s2, left, hi, hl, hf2, ho2⟩ := inner_can (n := m + 1) (err := d.errRef)
      (progress := progress) hord hfine (List.ne_nil_of_mem ho)
      (fun e he => by
        obtain ⟨n, h1, h2⟩ := hfrom e he
        rw [h1]
        exact (suits_iff hd hkeys hL n _).2 (hw n _ h2))
      (by
        rintro ⟨e, he', ht⟩
        obtain ⟨n, h1, h2⟩ := hfrom e he'
        rw [h1] at ht
        rw [errRef_next]
        exact (suits_iff hd hkeys hL _ _).2
          (he ⟨n, _, h2, (converts_iff hd hkeys hL n _).1 ht⟩))
    obtain ⟨l, rfl⟩ : ∃ l, left = l + 1 := ⟨left - 1, by omega⟩
    exact ⟨s2, hcan s2 l hi ho2 hf2.plain⟩

/-- C70, partial: whether such a diagram can be built depends neither on the order of its
operations nor on the order in which the outputs are drained. -/
theorem C70_order_partial (reg : Registry) (io : Io) (ord ord' : Order) (max max' : Nat)
    (d d' : Diagram) (hd : d.Declared) (hops : (d.ops.map (·.1)).Nodup)
    (hio : (io.streams.map (·.1)).Nodup) (hord : Drains ord) (hord' : Drains ord')
    (hmax : 4 ≤ max) (hmax' : 4 ≤ max') (hp : d.ops.Perm d'.ops) (hs : d.start = d'.start)
    (he : d.onErr = d'.onErr) :
    (∃ s, create reg io ord max d = .ok s) ↔ ∃ s, create reg io ord' max' d' = .ok s := by
  have hd' : d'.Declared := fun id s h => hd id s (hp.mem_iff.2 h)
  rw [C95_builds reg io ord max d hd hops hio hord hmax,
    C95_builds reg io ord' max' d' hd' ((hp.map _).nodup_iff.1 hops) hio hord' hmax']
  have hin : ∀ n ty, d.Input io n ty ↔ d'.Input io n ty := by
    intro n ty
    unfold Diagram.Input
    simp only [hp.mem_iff]
  have hen : d.errNext = d'.errNext := by unfold Diagram.errNext; rw [he]
  have hsn : ∀ n ty, d.Sends reg io n ty ↔ d'.Sends reg io n ty := by
    intro n ty
    unfold Diagram.Sends
    simp only [hp.mem_iff, hs, hen]
  unfold Diagram.WellTyped Diagram.Suits Diagram.Converts
  simp only [hin, hsn, hen]

/-- C72, partial: in a diagram without sections and scopes every target can be replaced by
`cancel`, also those for errors, if the errors of conversions have somewhere to go. -/
theorem C72_root_partial (reg : Registry) (io : Io) (ord : Order) (max : Nat) (d : Diagram)
    (hd : d.Declared) (hops : (d.ops.map (·.1)).Nodup) (hio : (io.streams.map (·.1)).Nodup)
    (hord : Drains ord) (hmax : 4 ≤ max) (g : Name → Next → Next)
    (hg : ∀ id n, g id n = n ∨ g id n = .cancel)
    (herr : d.onErr = none ∨ d.Suits reg io d.errNext reg.errTy)
    (hb : ∃ s, create reg io ord max d = .ok s) :
    ∃ s, create reg io ord max (d.retarget g) = .ok s := by
  have htakes : ∀ (k : Next → Next) (s : Schema), (s.retarget k).takes? = s.takes? := by
    intro k s; cases s <;> rfl
  have hmem : ∀ id s, (id, s) ∈ (d.retarget g).ops ↔
      ∃ s0, (id, s0) ∈ d.ops ∧ s = s0.retarget (g id) := by
    intro id s
    simp only [Diagram.retarget, List.mem_map, Prod.mk.injEq]
    constructor
    · rintro ⟨⟨i, s0⟩, h, rfl, rfl⟩; exact ⟨s0, h, rfl⟩
    · rintro ⟨s0, h, rfl⟩; exact ⟨(id, s0), h, rfl, rfl⟩
  have hd' : (d.retarget g).Declared := by
    intro id s h
    obtain ⟨s0, h0, rfl⟩ := (hmem id s).1 h
    rw [htakes]; exact hd id s0 h0
  have hops' : ((d.retarget g).ops.map (·.1)).Nodup := by
    simpa [Diagram.retarget, List.map_map, Function.comp_def] using hops
  have hin : ∀ n ty, (d.retarget g).Input io n ty ↔ d.Input io n ty := by
    intro n ty
    refine or_congr Iff.rfl ⟨?_, ?_⟩
    · rintro ⟨id, s, e, h, ht⟩
      obtain ⟨s0, h0, rfl⟩ := (hmem id s).1 h
      exact ⟨id, s0, e, h0, by rw [← htakes]; exact ht⟩
    · rintro ⟨id, s, e, h, ht⟩
      exact ⟨id, _, e, (hmem id _).2 ⟨s, h, rfl⟩, by rw [htakes]; exact ht⟩
  have hsu : ∀ n ty, (d.retarget g).Suits reg io n ty ↔ d.Suits reg io n ty := by
    intro n ty; unfold Diagram.Suits; simp only [hin]
  have hen : (d.retarget g).errNext = d.errNext := rfl
  have hsend : ∀ n ty, (d.retarget g).Sends reg io n ty →
      d.Sends reg io n ty ∨ n = .cancel := by
    rintro n ty (h | ⟨id, s, h, hs⟩)
    · exact .inl (.inl h)
    · obtain ⟨s0, h0, rfl⟩ := (hmem id s).1 h
      rw [hen] at hs
      have same : ∀ n0, n = g id n0 → n = n0 ∨ n = .cancel := by
        intro n0 e; rw [e]; exact hg id n0
      cases s0 with
      | node i o nx ss =>
        rcases hs with ⟨e, rfl⟩ | hs
        · rcases same _ e with rfl | e
          · exact .inl (.inr ⟨id, _, h0, .inl ⟨rfl, rfl⟩⟩)
          · exact .inr e
        · obtain ⟨⟨t, m⟩, hm, e⟩ := List.mem_map.1 hs
          cases e
          rcases hg id m with e | e
          · left; right
            refine ⟨id, _, h0, .inr ?_⟩
            show (t, g id m) ∈ ss
            rw [e]; exact hm
          · exact .inr e
      | transform nx oe =>
        rcases hs with ⟨e, rfl⟩ | ⟨e, rfl⟩
        · rcases same _ e with rfl | e
          · exact .inl (.inr ⟨id, _, h0, .inl ⟨rfl, rfl⟩⟩)
          · exact .inr e
        · cases oe with
          | none => exact .inl (.inr ⟨id, _, h0, .inr ⟨e, rfl⟩⟩)
          | some m =>
            rcases same m e with rfl | e
            · exact .inl (.inr ⟨id, _, h0, .inr ⟨rfl, rfl⟩⟩)
            · exact .inr e
      | _ => exact hs.elim
  rw [C95_builds reg io ord max d hd hops hio hord hmax] at hb
  rw [C95_builds reg io ord max _ hd' hops' hio hord hmax]
  refine ⟨fun n ty h => ?_, fun _ => ?_⟩
  · rcases hsend n ty h with h | rfl
    · exact (hsu n ty).2 (hb.1 n ty h)
    · exact .inr (.inl rfl)
  · rw [hen, hsu]
    rcases herr with h | h
    · exact .inr (.inl (by unfold Diagram.errNext; rw [h]; rfl))
    · exact h

/-- A node `1` that sends to `to` and to the buffer `3`, a transform `2` that sends to the end,
and a node `4` for the errors. -/
def flatD (to : Next) : Diagram where
  start := .name 1
  ops := [(1, .node 0 4 to [(4, .name 3)]), (2, .transform .terminate none),
    (3, .buffer true), (4, .node 9 9 .dispose [])]
  templates := []
  onErr := some (.name 4)

example : (flatD (.name 2)).Declared ∧ ((flatD (.name 2)).ops.map (·.1)).Nodup ∧
    ((flatD (.name 2)).WellTyped sampleReg ⟨0, 5, []⟩ ↔
      ∃ s, create sampleReg ⟨0, 5, []⟩ inOrder 10000 (flatD (.name 2)) = .ok s) := by
  have h1 : (flatD (.name 2)).Declared := by
    intro id s h
    simp only [flatD, List.mem_cons, List.not_mem_nil, or_false, Prod.mk.injEq] at h
    rcases h with ⟨_, rfl⟩ | ⟨_, rfl⟩ | ⟨_, rfl⟩ | ⟨_, rfl⟩ <;> rfl
  have h2 : ((flatD (.name 2)).ops.map (·.1)).Nodup := by decide
  exact ⟨h1, h2, (C95_builds _ _ _ _ _ h1 h2 (by decide) (fun _ l => .refl l) (by decide)).symm⟩

/-- The diagram can be built in one case, and not in the other. -/
example : (flatD (.name 2)).WellTyped sampleReg ⟨0, 5, []⟩ ∧
    ¬ (flatD (.name 9)).WellTyped sampleReg ⟨0, 5, []⟩ := by
  have dec : ∀ to, (flatD to).Declared := by
    intro to id s h
    simp only [flatD, List.mem_cons, List.not_mem_nil, or_false, Prod.mk.injEq] at h
    rcases h with ⟨_, rfl⟩ | ⟨_, rfl⟩ | ⟨_, rfl⟩ | ⟨_, rfl⟩ <;> rfl
  refine ⟨?_, ?_⟩
  · exact (C95_builds _ _ inOrder 10000 _ (dec _) (by decide) (by decide) (fun _ l => .refl l)
      (by decide)).1 (of_isOk (by decide +kernel))
  · intro h
    obtain ⟨s, hs⟩ := (C95_builds _ _ inOrder 10000 _ (dec _) (by decide) (by decide)
      (fun _ l => .refl l) (by decide)).2 h
    have := of_errOf (x := create sampleReg ⟨0, 5, []⟩ inOrder 10000 (flatD (.name 9)))
      (e := .unknownOperation (.named [] none 9)) (by decide +kernel)
    rw [this] at hs
    cases hs

/-- With its errors and one of its outputs sent to `cancel`, the diagram can still be built. -/
example : ∃ s, create sampleReg ⟨0, 5, []⟩ inOrder 10000
    ⟨.name 1, [(1, .node 0 4 .cancel [(4, .name 3)]), (2, .transform .terminate (some .cancel)),
      (3, .buffer true), (4, .node 9 9 .dispose [])], [], none⟩ = .ok s := by
  have h := C72_root_partial sampleReg ⟨0, 5, []⟩ inOrder 10000
    ⟨.name 1, [(1, .node 0 4 (.name 2) [(4, .name 3)]), (2, .transform .terminate (some (.name 4))),
      (3, .buffer true), (4, .node 9 9 .dispose [])], [], none⟩
    (by
      intro id s h
      simp only [List.mem_cons, List.not_mem_nil, or_false, Prod.mk.injEq] at h
      rcases h with ⟨_, rfl⟩ | ⟨_, rfl⟩ | ⟨_, rfl⟩ | ⟨_, rfl⟩ <;> rfl)
    (by decide) (by decide) (fun _ l => .refl l) (by decide)
    (fun id n => if n = .name 2 ∨ n = .name 4 then .cancel else n)
    (by intro id n; by_cases h : n = .name 2 ∨ n = .name 4 <;> simp [h])
    (.inl rfl) (of_isOk (by decide +kernel))
  exact h

end Verif.Diagram
