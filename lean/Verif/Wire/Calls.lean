import Verif.Wire.Connect

/-!
# Every call keeps the invariant of the builder
-/

namespace Verif.Wire

variable {pend : List Nat} {b : Build} {p : Plan}

/-! ## Handles -/

theorem Inv.addSlot (h : Inv pend b p) {s : Slot}
    (hs : ∃ e, b.world.ents s.source = some e ∧ e.op = true ∧ e.scope = some s.scope) :
    Inv pend { b with slots := b.slots ++ [s] } p :=
  { h with
    slot := fun t ht => by
      rcases List.mem_append.mp ht with ht | ht
      · exact h.slot t ht
      · simp only [List.mem_singleton] at ht
        exact ht ▸ hs }

theorem Inv.addFork (h : Inv pend b p) {s : Slot}
    (hs : ∃ e, b.world.ents s.source = some e ∧ e.op = true ∧ Forks e) :
    Inv pend { b with forks := b.forks ++ [s] } p :=
  { h with
    forks := fun t ht => by
      rcases List.mem_append.mp ht with ht | ht
      · exact h.forks t ht
      · simp only [List.mem_singleton] at ht
        exact ht ▸ hs }

theorem Inv.addBuffer (h : Inv pend b p) {s : Slot}
    (hs : ∃ e, b.world.ents s.source = some e ∧ e.op = true ∧ Forks e) :
    Inv pend { b with buffers := b.buffers ++ [s] } p :=
  { h with
    buffers := fun t ht => by
      rcases List.mem_append.mp ht with ht | ht
      · exact h.buffers t ht
      · simp only [List.mem_singleton] at ht
        exact ht ▸ hs }

theorem Inv.addScope (h : Inv pend b p) {s : Nat}
    (hs : ∃ e, b.world.ents s = some e ∧ e.op = true ∧ e.contents.isSome) :
    Inv pend { b with scopes := b.scopes ++ [s] } p :=
  { h with
    scopes := fun t ht => by
      rcases List.mem_append.mp ht with ht | ht
      · exact h.scopes t ht
      · simp only [List.mem_singleton] at ht
        exact ht ▸ hs }

/-- Outputs in another order. -/
theorem Inv.perm (h : Inv pend b p) {outs : List Output} (hp : outs.Perm b.outs) :
    Inv pend { b with outs := outs } p :=
  { h with
    live := fun x y hy => by
      obtain ⟨h1, h2⟩ := h.live x y hy
      refine ⟨h1, ?_⟩
      rcases h2 with h2 | h2 | h2
      · exact .inl h2
      · exact .inr (.inl ((hp.map _).mem_iff.mpr h2))
      · exact .inr (.inr h2)
    out := fun o ho => h.out o (hp.mem_iff.mp ho)
    nodup := (hp.map _).nodup_iff.mpr h.nodup
    pendOk := fun s hs => by
      obtain ⟨h1, h2, h3, h4⟩ := h.pendOk s hs
      exact ⟨h1, h2, fun hx => h3 ((hp.map _).mem_iff.mp hx), h4⟩
    entLive := fun s n hn => by
      obtain ⟨h1, h2⟩ := h.entLive s n hn
      refine ⟨h1, ?_⟩
      rcases h2 with h2 | h2 | h2
      · exact .inl h2
      · exact .inr (.inl ((hp.map _).mem_iff.mpr h2))
      · exact .inr (.inr h2)
    entFor := fun o ho => h.entFor o (hp.mem_iff.mp ho) }

/-! ## The source of an operation -/

/-- What is known of an entity that is to be turned into an operation. -/
structure Ready (b : Build) (p : Plan) (s sc : Nat) : Prop where
  inv : Inv [s] b p
  scope : sc ∈ b.scopes
  home : p.Named s → p.home s = sc
  blank : ∃ e, b.world.ents s = some e ∧ Blank e

theorem Inv.source (h : Inv [] b p) {src : From} {b' : Build} {s sc : Nat}
    (hb : b.source src = some (b', s, sc)) :
    (p.source src).2 = (s, sc) ∧ Ready b' (p.source src).1 s sc := by
  cases src with
  | fresh sc' =>
    simp only [Build.source] at hb
    split at hb
    · rename_i hsc
      cases hb
      refine ⟨by simp only [Plan.source, h.next], ?_, hsc, ?_, {}, World.spawn_new, ?_⟩
      · exact h.spawn rfl rfl rfl rfl (fun s hs => ⟨by simpa using hs, rfl⟩)
      · intro hn
        have := h.bound _ hn
        rw [h.next] at this
        exact absurd this (Nat.lt_irrefl _)
      · exact ⟨rfl, rfl, rfl, rfl, rfl, rfl⟩
    · cases hb
  | chained o =>
    simp only [Build.source] at hb
    split at hb
    · rename_i ho
      cases hb
      obtain ⟨⟨e, he, hbl, -⟩, -, hh⟩ := h.out o ho.1
      exact ⟨rfl, h.take ho.1, ho.2, fun _ => hh, e, he, hbl⟩
    · cases hb

/-! ## Spawning and feeding -/

theorem World.spawnMany_eq (e : Ent) (n : Nat) : ∀ (w : World),
    w.spawnMany e n = { w with
      ents := fun m => if m ∈ List.range' w.next n then some e else w.ents m
      next := w.next + n } := by
  induction n with
  | zero => intro w; simp [World.spawnMany]
  | succ n ih =>
    intro w
    rw [World.spawnMany, ih]
    show World.mk _ _ _ = World.mk _ _ _
    congr 1
    · funext m
      show (if m ∈ List.range' (w.next + 1) n then some e
        else if m = w.next then some e else w.ents m) = _
      rw [List.range'_succ]
      by_cases h1 : m ∈ List.range' (w.next + 1) n
      · simp [h1]
      · by_cases h2 : m = w.next
        · simp [h2]
        · simp [h1, h2]
    · show w.next + 1 + n = _; omega

theorem World.feed_eq (s : Nat) (ts : List Nat) : ∀ (w : World), (∀ t ∈ ts, w.ents t ≠ none) →
    w.feed s ts = { w with
      ents := fun m => if m ∈ ts then (w.ents m).map (fun e => { e with inputs := some [s] })
        else w.ents m } := by
  induction ts with
  | nil => intro w _; simp [World.feed]
  | cons t ts ih =>
    intro w h
    obtain ⟨e, he⟩ := Option.ne_none_iff_exists'.mp (h t List.mem_cons_self)
    rw [World.feed, World.update_eq he, ih]
    · congr 1
      funext m
      by_cases h1 : m = t
      · subst h1
        by_cases h2 : m ∈ ts
        · simp [h2, he]
        · simp [h2, he]
      · by_cases h2 : m ∈ ts
        · simp [h1, h2]
        · simp [h1, h2]
    · intro t' ht'
      by_cases h1 : t' = t
      · simp [h1]
      · simp only [h1, if_false]
        exact h t' (List.mem_cons_of_mem _ ht')

theorem Plan.give_give (p : Plan) (s sc a c : Nat) :
    (p.give s sc a).give s sc c = p.give s sc (a + c) := by
  simp only [Plan.give]
  congr 1
  · omega
  · funext m
    simp only [set]
    by_cases hm : m = s
    · subst hm
      simp only [if_true]
      rw [List.append_assoc]
      congr 1
      simp
    · simp only [hm, if_false]
  · funext m
    simp only [List.mem_range'_1]
    by_cases h1 : p.next + a ≤ m ∧ m < p.next + a + c
    · rw [if_pos h1, if_pos (by omega)]
    · rw [if_neg h1]
      by_cases h2 : p.next ≤ m ∧ m < p.next + a
      · rw [if_pos h2, if_pos (by omega)]
      · rw [if_neg h2, if_neg (by omega)]

/-- The target of a new operation is spawned, fed and set. -/
theorem attached_single {w : World} {s : Nat} {e : Ent} (he : w.ents s = some e) (hb : Blank e)
    (hlt : s < w.next) :
    Attached w (((w.spawn { unused := true }).feed s [w.next]).update s
      fun e => { e with single := some w.next }) s 1 := by
  have hne : s ≠ w.next := by omega
  rw [World.feed_eq]
  · rw [World.update_eq (e := e) (by simp [World.spawn, hne, he])]
    refine ⟨rfl, rfl, ?_, ?_, e, { e with single := some w.next }, he, by simp, ?_, rfl, rfl, rfl,
      rfl, rfl, rfl, ?_⟩
    · intro m hm
      simp only [List.range'_one, List.mem_singleton] at hm
      subst hm
      refine ⟨{ unused := true, inputs := some [s] }, ?_, rfl, ⟨rfl, rfl, rfl, rfl, rfl, rfl⟩, rfl⟩
      simp [Ne.symm hne, World.spawn]
    · intro m hm hms
      simp only [List.range'_one, List.mem_singleton] at hm
      simp [hm, hms, World.spawn]
    · simp [Ent.targets, hb.single, hb.fork, hb.streams]
    · intro hf
      have := hf.fork
      rw [hb.fork] at this; cases this
  · intro t ht
    simp only [List.mem_singleton] at ht
    subst ht
    rw [World.spawn_new]; simp

/-! ## The calls -/

theorem nodeStreams_eq (s : Nat) (keys : List Nat) : ∀ (w : World) (map : List (Nat × Nat)),
    keys.Nodup → (∀ k ∈ keys, ∀ q ∈ map, q.1 ≠ k) →
    w.nodeStreams s map keys =
      (w.spawnMany { inputs := some [s], unused := true } keys.length,
        map ++ keys.zip (List.range' w.next keys.length)) := by
  induction keys with
  | nil => intro w map _ _; simp [World.nodeStreams, World.spawnMany]
  | cons k ks ih =>
    intro w map hn hd
    rw [List.nodup_cons] at hn
    have hany : map.any (fun q => q.1 == k) = false := by
      rw [List.any_eq_false]
      intro q hq
      have := hd k List.mem_cons_self q hq
      simpa using this
    unfold World.nodeStreams
    simp only [addStream, hany]
    rw [if_neg (by simp)]
    show World.nodeStreams (w.spawn _) s (map ++ [(k, w.next)]) ks = _
    rw [ih _ _ hn.2]
    · show _ = ((w.spawn _).spawnMany _ ks.length, _)
      congr 1
      rw [List.append_assoc, List.length_cons, List.range'_succ]
      rfl
    · intro k' hk' q hq
      rcases List.mem_append.mp hq with hq | hq
      · exact hd k' (List.mem_cons_of_mem _ hk') q hq
      · simp only [List.mem_singleton] at hq
        subst hq
        intro hx
        have hx' : k = k' := hx
        exact hn.1 (hx' ▸ hk')

theorem Ready.lt {s sc : Nat} (h : Ready b p s sc) : s < b.world.next := by
  obtain ⟨e, he, -⟩ := h.blank
  exact h.inv.alive_lt (by rw [he]; simp)

theorem Ready.not_out {s sc : Nat} (h : Ready b p s sc) : s ∉ b.outs.map (·.target) :=
  (h.inv.pendOk s (by simp)).2.2.1

theorem named_give {h : Inv pend b p} {s sc n x : Nat} (hx : x < b.world.next)
    (hh : p.Named x → p.home x = sc) {sc' : Nat} :
    (p.give s sc' n).Named x → (p.give s sc' n).home x = sc := by
  have hnot : x ∉ List.range' p.next n := by
    rw [List.mem_range'_1, h.next]; omega
  intro hn
  have : p.Named x := by
    rcases hn with ⟨y, hy⟩ | hn
    · simp only [Plan.give, set] at hy
      by_cases hys : y = s
      · rw [if_pos hys, List.mem_append] at hy
        rcases hy with hy | hy
        · exact .inl ⟨s, hy⟩
        · exact absurd hy hnot
      · rw [if_neg hys] at hy
        exact .inl ⟨y, hy⟩
    · exact .inr hn
  simp only [Plan.give]
  rw [if_neg hnot]
  exact hh this

/-- A new operation with one target. `outer` is where its output may be used. -/
theorem Ready.addNode {s sc : Nat} (h : Ready b p s sc) (outer : Nat) :
    Inv [] { b with
        world := (b.world.spawn { unused := true }).addNode sc s b.world.next
        outs := b.outs ++ [⟨b.world.next, outer⟩] }
      ((p.give s outer 1).place s sc) ∧
    ∃ e, ((b.world.spawn { unused := true }).addNode sc s b.world.next).ents s = some e ∧
      e.op = true ∧ e.scope = some sc ∧ e.fork = none ∧ e.streams = [] ∧ e.entry = none ∧
      e.contents = none := by
  obtain ⟨e, he, hb⟩ := h.blank
  have ha := attached_single he hb h.lt
  obtain ⟨-, e1, he0, he1, -⟩ := ha.src
  have h1 := h.inv.attach (sc := outer) ha h.not_out
  obtain ⟨h2, e2, he2, he3⟩ := h1.addOp (sc := sc) h.scope
    (named_give (h := h.inv) h.lt h.home)
  refine ⟨h2, _, he3, rfl, rfl, ?_⟩
  have hne : s ≠ b.world.next := Nat.ne_of_lt h.lt
  have hee : e2 = { e with single := some b.world.next } := by
    have := he2
    rw [World.feed_eq] at this
    · rw [World.update_eq (e := e) (by simp [World.spawn, hne, he])] at this
      simpa using this.symm
    · intro t ht
      simp only [List.mem_singleton] at ht
      subst ht
      rw [World.spawn_new]; simp
  rw [hee]
  exact ⟨hb.fork, hb.streams, hb.entry, hb.contents⟩

theorem Ready.node {s sc : Nat} (h : Ready b p s sc) {keys : List Nat} (hk : keys.Nodup) :
    Inv [] (b.node s sc keys) ((p.give s sc (1 + keys.length)).place s sc) := by
  obtain ⟨h2, e, he, hop, hsc, hfk, hst, hen, hco⟩ := h.addNode sc
  have hgg : (p.give s sc (1 + keys.length)).place s sc =
      ((p.give s sc 1).place s sc).give s sc keys.length := by
    rw [← Plan.give_give]; rfl
  rw [hgg]
  unfold Build.node
  simp only [nodeStreams_eq s keys _ [] hk (fun _ _ _ hq => by cases hq)]
  generalize hw : (b.world.spawn { unused := true }).addNode sc s b.world.next = w at h2 he
  have hlt : s < w.next := h2.alive_lt (by show w.ents s ≠ none; rw [he]; simp)
  have hne : s ∉ List.range' w.next keys.length := by rw [List.mem_range'_1]; omega
  have hw2 : (w.spawnMany { inputs := some [s], unused := true } keys.length).update s
      (fun e => { e with streams := [] ++ keys.zip (List.range' w.next keys.length) }) =
      { w with
        ents := fun m => if m = s then
            some { e with streams := keys.zip (List.range' w.next keys.length) }
          else if m ∈ List.range' w.next keys.length then
            some { inputs := some [s], unused := true } else w.ents m
        next := w.next + keys.length } := by
    rw [World.spawnMany_eq, World.update_eq (e := e) (by simp only [if_neg hne]; exact he)]
    simp
  have ha : Attached w ((w.spawnMany { inputs := some [s], unused := true } keys.length).update s
      (fun e => { e with streams := [] ++ keys.zip (List.range' w.next keys.length) })) s
      keys.length := by
    rw [hw2]
    refine ⟨rfl, rfl, ?_, ?_, e, { e with streams := keys.zip (List.range' w.next keys.length) },
      he, by simp, ?_, rfl, rfl, rfl, rfl, rfl, rfl, ?_⟩
    · intro m hm
      have hms : m ≠ s := fun hx => hne (hx ▸ hm)
      refine ⟨{ inputs := some [s], unused := true }, ?_, rfl, ⟨rfl, rfl, rfl, rfl, rfl, rfl⟩, rfl⟩
      simp [hms, hm]
    · intro m hm hms
      simp [hm, hms]
    · have hz : (keys.zip (List.range' w.next keys.length)).map (·.2) =
          List.range' w.next keys.length := by
        apply List.map_snd_zip
        simp
      simp [Ent.targets, hfk, hst, hz]
    · intro hf
      have := hf.fork
      rw [hfk] at this; cases this
  have hnout : s ∉ (b.outs ++ [(⟨b.world.next, sc⟩ : Output)]).map (·.target) := by
    intro hx
    obtain ⟨o, ho, hos⟩ := List.mem_map.mp hx
    exact h2.out_not_op ho ⟨e, hos ▸ he, hop⟩
  have h3 := h2.attach (sc := sc) ha hnout
  have h4 := h3.addSlot (s := ⟨s, sc⟩)
    ⟨{ e with streams := keys.zip (List.range' w.next keys.length) }, by
      show World.ents _ s = _
      rw [hw2]; simp, hop, hsc⟩
  exact h4

theorem Ready.fork {s sc : Nat} (h : Ready b p s sc) (n : Nat) :
    Inv [] (b.fork s sc n) ((p.give s sc n).place s sc) := by
  obtain ⟨e, he, hb⟩ := h.blank
  have hlt := h.lt
  have hne : s ∉ List.range' b.world.next n := by rw [List.mem_range'_1]; omega
  have hw : ((b.world.spawnMany { unused := true } n).feed s (List.range' b.world.next n)).update s
      (fun e => { e with fork := some (List.range' b.world.next n) }) =
      { b.world with
        ents := fun m => if m = s then some { e with fork := some (List.range' b.world.next n) }
          else if m ∈ List.range' b.world.next n then
            some { inputs := some [s], unused := true } else b.world.ents m
        next := b.world.next + n } := by
    rw [World.spawnMany_eq, World.feed_eq]
    · rw [World.update_eq (e := e) (by simp only [if_neg hne]; exact he)]
      congr 1
      funext m
      by_cases h1 : m = s
      · simp [h1]
      · by_cases h2 : m ∈ List.range' b.world.next n
        · simp only [h1, h2, if_true, if_false, Option.map_some]
        · simp only [h1, h2, if_false]
    · intro t ht
      simp only [if_pos ht]
      simp
  have ha : Attached b.world
      (((b.world.spawnMany { unused := true } n).feed s (List.range' b.world.next n)).update s
      (fun e => { e with fork := some (List.range' b.world.next n) })) s n := by
    rw [hw]
    refine ⟨rfl, rfl, ?_, ?_, e, { e with fork := some (List.range' b.world.next n) },
      he, by simp, ?_, rfl, rfl, rfl, rfl, rfl, rfl, ?_⟩
    · intro m hm
      have hms : m ≠ s := fun hx => hne (hx ▸ hm)
      refine ⟨{ inputs := some [s], unused := true }, ?_, rfl, ⟨rfl, rfl, rfl, rfl, rfl, rfl⟩, rfl⟩
      simp only [hms, if_false, if_pos hm]
    · intro m hm hms
      simp only [hms, if_false, if_neg hm]
    · simp [Ent.targets, hb.single, hb.fork, hb.streams]
    · intro hf
      have := hf.fork
      rw [hb.fork] at this; cases this
  have h1 := h.inv.attach (sc := sc) ha h.not_out
  obtain ⟨h2, e2, he2, he3⟩ := h1.addOp (sc := sc) h.scope (named_give (h := h.inv) hlt h.home)
  have hee : e2 = { e with fork := some (List.range' b.world.next n) } := by
    have : (((b.world.spawnMany { unused := true } n).feed s (List.range' b.world.next n)).update s
      (fun e => { e with fork := some (List.range' b.world.next n) })).ents s = some e2 := he2
    rw [hw] at this
    simpa using this.symm
  have h3 := h2.addSlot (s := ⟨s, sc⟩) ⟨_, he3, rfl, rfl⟩
  have h4 := h3.addFork (s := ⟨s, sc⟩) ⟨_, he3, rfl, by
    rw [hee]
    exact ⟨hb.single, hb.streams, rfl⟩⟩
  exact h4

theorem Inv.branch (h : Inv [] b p) {f : Slot} (hf : f ∈ b.forks) :
    Inv [] (b.branch f) (p.give f.source f.scope 1) := by
  obtain ⟨e, he, hop, hfk⟩ := h.forks f hf
  obtain ⟨ts, hts⟩ := Option.isSome_iff_exists.mp hfk.fork
  have hlt : f.source < b.world.next := h.alive_lt (by rw [he]; simp)
  have hne : f.source ≠ b.world.next := Nat.ne_of_lt hlt
  have he' : (b.world.spawn { inputs := some [f.source], unused := true }).ents f.source = some e := by
    rw [World.spawn_old hne]; exact he
  unfold Build.branch
  simp only [he', Option.bind_some, hts]
  rw [World.update_eq he']
  refine h.attach (s := f.source) (sc := f.scope) (n := 1)
    ⟨rfl, rfl, ?_, ?_, e, { e with fork := some (ts ++ [b.world.next]) }, he, by simp, ?_, rfl, rfl,
      rfl, rfl, rfl, rfl, ?_⟩ ?_
  · intro m hm
    simp only [List.range'_one, List.mem_singleton] at hm
    subst hm
    refine ⟨{ inputs := some [f.source], unused := true }, ?_, rfl,
      ⟨rfl, rfl, rfl, rfl, rfl, rfl⟩, rfl⟩
    simp [Ne.symm hne, World.spawn]
  · intro m hm hms
    simp only [List.range'_one, List.mem_singleton] at hm
    simp [hm, hms, World.spawn]
  · simp [Ent.targets, hfk.single, hfk.streams, hts]
  · intro _
    exact ⟨hfk.single, hfk.streams, rfl⟩
  · intro hx
    obtain ⟨o, ho, hos⟩ := List.mem_map.mp hx
    exact h.out_not_op ho ⟨e, hos ▸ he, hop⟩

theorem not_named_next (h : Inv pend b p) : ¬ p.Named p.next := by
  intro hn
  exact Nat.lt_irrefl _ (h.bound _ hn)

theorem Inv.sink (h : Inv [] b p) {sc : Nat} (hsc : sc ∈ b.scopes) :
    Inv [] (b.sink sc) (p.skip.place p.next sc) := by
  have h1 : Inv [b.world.next] { b with world := b.world.spawn {} } p.skip :=
    h.spawn rfl rfl rfl rfl (fun s hs => ⟨by simpa using hs, rfl⟩)
  obtain ⟨h2, e, he, he2⟩ := h1.addOp (sc := sc) hsc (fun hn => by
    rw [← h.next] at hn
    exact absurd hn (not_named_next h))
  have h3 := h2.addSlot (s := ⟨b.world.next, sc⟩) ⟨_, he2, rfl, rfl⟩
  rw [h.next]
  exact h3

theorem Inv.buffer (h : Inv [] b p) {sc : Nat} (hsc : sc ∈ b.scopes) :
    Inv [] (b.buffer sc) (p.skip.place p.next sc) := by
  have hw : (b.world.spawn {}).update b.world.next
      (fun e => { e with fork := some [], inputs := some [] }) =
      b.world.spawn { fork := some [], inputs := some [] } := by
    rw [World.update_eq World.spawn_new]
    unfold World.spawn
    congr 1
    funext m
    by_cases hm : m = b.world.next
    · simp [hm]
    · simp [hm]
  have h1 : Inv [b.world.next]
      { b with world := b.world.spawn { fork := some [], inputs := some [] } } p.skip :=
    h.spawn rfl rfl rfl rfl (fun s hs => ⟨by simpa using hs, rfl⟩)
  obtain ⟨h2, e, he, he2⟩ := h1.addOp (sc := sc) hsc (fun hn => by
    rw [← h.next] at hn
    exact absurd hn (not_named_next h))
  have hee : e = { fork := some [], inputs := some [] } := by
    have : (b.world.spawn { fork := some [], inputs := some [] }).ents b.world.next = some e := he
    rw [World.spawn_new] at this
    exact (Option.some.inj this).symm
  have h3 := h2.addSlot (s := ⟨b.world.next, sc⟩) ⟨_, he2, rfl, rfl⟩
  have h4 := h3.addBuffer (s := ⟨b.world.next, sc⟩) ⟨_, he2, rfl, by
    rw [hee]; exact ⟨rfl, rfl, rfl⟩⟩
  rw [h.next]
  unfold Build.buffer
  simp only [hw]
  exact h4

/-! ### Listeners -/

theorem World.update_update {w : World} {id : Nat} {e : Ent} {f g : Ent → Ent}
    (he : w.ents id = some e) :
    (w.update id f).update id g = { w with
      ents := fun m => if m = id then some (g (f e)) else w.ents m } := by
  rw [World.update_eq he, World.update_eq (id := id) (e := f e) (by simp)]
  congr 1
  funext m
  by_cases hm : m = id
  · simp only [if_pos hm]
  · simp only [if_neg hm]

theorem listen_eq {w : World} {s l : Nat} {es el : Ent} {ts : List Nat} (hne : s ≠ l)
    (hs : w.ents s = some es) (hf : es.fork = some ts) (hl : w.ents l = some el) :
    w.listen s l = { w with
      ents := fun m => if m = l then some (addInput s el)
        else if m = s then some { es with fork := some (if l ∈ ts then ts else ts ++ [l]) }
        else w.ents m } := by
  unfold World.listen
  simp only [hs, Option.bind_some, hf]
  rw [World.update_eq hs]
  rw [World.update_eq (id := l) (e := el) (by
    show (if l = s then _ else w.ents l) = _
    rw [if_neg (Ne.symm hne)]; exact hl)]

theorem addInput_single (s t : Nat) (e : Ent) :
    { addInput s e with single := some t } = addInput s { e with single := some t } := by
  unfold addInput
  cases e.inputs <;> rfl

theorem listen_comm {w : World} {s l t : Nat} {el : Ent} (hne : s ≠ l) (hl : w.ents l = some el) :
    (w.listen s l).update l (fun e => { e with single := some t }) =
      (w.update l fun e => { e with single := some t }).listen s l ∧
    (w.listen s l).ents l ≠ none := by
  rw [World.update_eq hl]
  cases hf : (w.ents s).bind (·.fork) with
  | none =>
    unfold World.listen
    simp only [if_neg hne, hf]
    refine ⟨?_, by simp [hl]⟩
    rw [World.update_eq (w := { w with errors := w.errors + 1 }) hl]
  | some ts =>
    obtain ⟨es, hs, hf⟩ := Option.bind_eq_some_iff.mp hf
    rw [listen_eq hne hs hf hl]
    rw [listen_eq (es := es) (el := { el with single := some t }) hne
      (by show (if s = l then _ else w.ents s) = _
          rw [if_neg hne]; exact hs) hf (by simp)]
    rw [World.update_eq (id := l) (e := addInput s el) (by simp)]
    refine ⟨?_, by simp⟩
    congr 1
    funext m
    by_cases hm : m = l
    · simp only [if_pos hm, addInput_single]
    · by_cases hms : m = s
      · simp only [if_pos hms, if_neg hm]
      · simp only [if_neg hm, if_neg hms]

theorem listenAll_comm {l t : Nat} (bs : List Slot) : ∀ (w : World), (∀ s ∈ bs, s.source ≠ l) →
    w.ents l ≠ none →
    (w.listenAll l bs).update l (fun e => { e with single := some t }) =
      (w.update l fun e => { e with single := some t }).listenAll l bs := by
  induction bs with
  | nil => intro w _ _; rfl
  | cons s bs ih =>
    intro w hs hl
    obtain ⟨el, hel⟩ := Option.ne_none_iff_exists'.mp hl
    obtain ⟨h1, h2⟩ := listen_comm (t := t) (hs s List.mem_cons_self) hel
    unfold World.listenAll
    rw [ih _ (fun s' hs' => hs s' (List.mem_cons_of_mem _ hs')) h2, h1]

theorem Inv.listenAll {l : Nat} (bs : List Slot) : ∀ {b : Build} {p : Plan}, Inv [l] b p →
    (∀ s ∈ bs, s ∈ b.buffers) → (∀ x, p.entry x ≠ some l) →
    Inv [l] { b with world := b.world.listenAll l bs } (p.listenAll l bs) ∧
      (∀ m, (p.listenAll l bs).home m = p.home m) := by
  induction bs with
  | nil => intro b p h _ _; exact ⟨h, fun _ => rfl⟩
  | cons s bs ih =>
    intro b p h hs hl
    have h1 := h.listen (hs s List.mem_cons_self) hl
    obtain ⟨h2, h3⟩ := ih h1 (fun s' hs' => hs s' (List.mem_cons_of_mem _ hs')) hl
    exact ⟨h2, h3⟩

theorem Inv.setHome (h : Inv pend b p) {l sc : Nat} (hl : ¬ p.Named l)
    (ho : l ∉ b.outs.map (·.target)) : Inv pend b { p with home := set p.home l sc } :=
  { h with
    out := fun o ho' => by
      obtain ⟨h1, h2, h3⟩ := h.out o ho'
      refine ⟨h1, h2, ?_⟩
      show set p.home l sc o.target = o.scope
      have hx : o.target ≠ l := fun hx => ho (hx ▸ List.mem_map_of_mem ho')
      unfold set
      rw [if_neg hx]
      exact h3
    home := fun n hn e he hoe => by
      show e.scope = some (set p.home l sc n)
      have hx : n ≠ l := fun hx => hl (hx ▸ hn)
      unfold set
      rw [if_neg hx]
      exact h.home n hn e he hoe
    bound := h.bound }

theorem Inv.listener (h : Inv [] b p) {sc : Nat} {bs : List Slot} (hsc : sc ∈ b.scopes)
    (hbs : ∀ s ∈ bs, s ∈ b.buffers) :
    Inv [] (b.listener sc bs) (p.call (.listener sc bs)) := by
  have h1 : Inv [b.world.next] { b with world := b.world.spawn {} } p.skip :=
    h.spawn rfl rfl rfl rfl (fun s hs => ⟨by simpa using hs, rfl⟩)
  have hnn : ¬ p.skip.Named b.world.next := by
    rw [← h.next]
    exact not_named_next h
  have hno := (h1.pendOk b.world.next (by simp)).2.2.1
  have h2 := h1.setHome (sc := sc) hnn hno
  have hlt : b.world.next < (b.world.spawn {}).next := Nat.lt_succ_self _
  have ha := attached_single (w := b.world.spawn {}) (s := b.world.next) (e := {})
    World.spawn_new ⟨rfl, rfl, rfl, rfl, rfl, rfl⟩ hlt
  have h3 := h2.attach (sc := sc) ha hno
  have hnent : ∀ x, p.entry x ≠ some b.world.next := by
    intro x hx
    rw [← h.next] at hx
    exact not_named_next h (.inr ⟨x, hx⟩)
  obtain ⟨h4, hh4⟩ := Inv.listenAll bs h3 hbs hnent
  obtain ⟨h5, -⟩ := h4.addOp (sc := sc) hsc (fun _ => by
    rw [hh4]
    show (if b.world.next ∈ List.range' (p.next + 1) 1 then sc else set p.home b.world.next sc b.world.next) = sc
    rw [if_neg (by simp [h.next])]
    simp [set])
  have hne : ∀ s ∈ bs, s.source ≠ b.world.next := by
    intro s hs hx
    obtain ⟨e, he, -⟩ := h.buffers s (hbs s hs)
    rw [hx, h.fresh _ (Nat.le_refl _)] at he
    cases he
  have hcm := listenAll_comm (l := b.world.next) (t := b.world.next + 1) bs
    (((b.world.spawn {}).spawn { unused := true }).feed b.world.next [b.world.next + 1]) hne (by
      rw [World.feed_eq]
      · simp [World.spawn]
      · intro t ht
        simp only [List.mem_singleton] at ht
        subst ht
        simp [World.spawn])
  unfold Build.listener
  simp only [Plan.call, h.next]
  have hsn : (b.world.spawn {}).next = b.world.next + 1 := rfl
  simp only [hsn]
  rw [hcm]
  exact h5

/-! ### Scopes -/

theorem Inv.scopeStreams (scope outer n : Nat) : ∀ {b : Build} {p : Plan}, Inv [] b p →
    scope ∈ b.scopes → Inv [] (b.scopeStreams scope outer n) (p.scopeStreams scope outer n) := by
  induction n with
  | zero => intro b p h _; exact h
  | succ n ih =>
    intro b p h hsc
    have h1 : Inv [b.world.next] { b with world := b.world.spawn {} } p.skip :=
      h.spawn rfl rfl rfl rfl (fun s hs => ⟨by simpa using hs, rfl⟩)
    have hr : Ready { b with world := b.world.spawn {} } p.skip b.world.next scope := by
      refine ⟨h1, hsc, ?_, {}, World.spawn_new, ⟨rfl, rfl, rfl, rfl, rfl, rfl⟩⟩
      intro hn
      rw [← h.next] at hn
      exact absurd hn (not_named_next h)
    obtain ⟨h2, e, he, hop, hes, -⟩ := hr.addNode outer
    have h3 := h2.addSlot (s := ⟨b.world.next, scope⟩) ⟨e, he, hop, hes⟩
    have h4 := ih h3 hsc
    unfold Build.scopeStreams Plan.scopeStreams
    rw [h.next]
    exact h4

theorem Ready.newScope {s outer : Nat} (h : Ready b p s outer) (n : Nat) :
    Inv [] (b.newScope s outer n)
      (((((p.give s outer 1).opens s).skip).place s outer).scopeStreams s outer n) := by
  obtain ⟨e, he, hb⟩ := h.blank
  have hlt := h.lt
  obtain ⟨eo, heo, hopo, hcs⟩ := h.inv.scopes outer h.scope
  obtain ⟨c, hcc⟩ := Option.isSome_iff_exists.mp hcs
  have holt : outer < b.world.next := h.inv.alive_lt (by rw [heo]; simp)
  have hos : outer ≠ s := by
    intro hx
    rw [hx, he] at heo
    cases heo
    rw [hb.op] at hopo; cases hopo
  -- the exit
  have ha := attached_single he hb hlt
  have hw1 : ((b.world.spawn { unused := true }).feed s [b.world.next]).update s
      (fun e => { e with single := some b.world.next }) =
      { b.world with
        ents := fun m => if m = s then some { e with single := some b.world.next }
          else if m = b.world.next then some { inputs := some [s], unused := true }
          else b.world.ents m
        next := b.world.next + 1 } := by
    have hne : s ≠ b.world.next := by omega
    rw [World.feed_eq]
    · rw [World.update_eq (e := e) (by simp [World.spawn, hne, he])]
      unfold World.spawn
      congr 1
      funext m
      by_cases h1 : m = s
      · simp [h1]
      · by_cases h2 : m = b.world.next
        · subst h2; simp [h1]
        · simp [h1, h2]
    · intro t ht
      simp only [List.mem_singleton] at ht
      subst ht
      rw [World.spawn_new]; simp
  have h1 := h.inv.attach (sc := outer) ha h.not_out
  rw [hw1] at h1
  -- the entry
  have h2 := h1.opens (e := { e with single := some b.world.next }) (by simp) hb.entry hb.contents rfl
  -- the scope itself
  have hnamed : ((p.give s outer 1).opens s).Named s → ((p.give s outer 1).opens s).home s = outer := by
    have hns : s ≠ p.next + 1 := by rw [h.inv.next]; omega
    intro hn
    have hh : ((p.give s outer 1).opens s).home s = (p.give s outer 1).home s := by
      show set _ (p.next + 1) s s = _
      unfold set
      rw [if_neg hns]
    rw [hh]
    refine named_give (h := h.inv) hlt h.home ?_
    rcases hn with hn | ⟨x, hx⟩
    · exact .inl hn
    · refine .inr ⟨x, ?_⟩
      have hx' : set (p.give s outer 1).entry s (some (p.next + 1)) x = some s := hx
      unfold set at hx'
      by_cases hxs : x = s
      · rw [if_pos hxs] at hx'
        cases hx'
        exact absurd rfl hns
      · rw [if_neg hxs] at hx'; exact hx'
  have hsb : outer ∈ b.scopes := h.scope
  obtain ⟨h3, -⟩ := h2.addOp (sc := outer) hsb hnamed
  -- the terminal
  have h4 := h3.spawn (e0 := { inputs := some [], scope := some s, op := true }) (pend' := [])
    rfl rfl rfl rfl (fun s hs => by cases hs)
  -- the world
  have hne1 : s ≠ b.world.next := by omega
  have hne2 : s ≠ b.world.next + 1 := by omega
  have hne3 : s ≠ b.world.next + 2 := by omega
  have hon1 : outer ≠ b.world.next := by omega
  have hon2 : outer ≠ b.world.next + 1 := by omega
  have hon3 : outer ≠ b.world.next + 2 := by omega
  let G : World := { b.world with
    ents := fun m =>
      if m = b.world.next + 2 then some { inputs := some [], scope := some s, op := true }
      else if m = b.world.next + 1 then some { entryFor := some s, unused := true }
      else if m = b.world.next then some { inputs := some [s], unused := true }
      else if m = outer then some { eo with contents := some (c ++ [s]) }
      else if m = s then some { e with
          single := some b.world.next
          entry := some (b.world.next + 1)
          contents := some []
          op := true
          scope := some outer }
      else b.world.ents m
    next := b.world.next + 3 }
  have hG1 : ((({ b.world with
        ents := fun m =>
          if m = b.world.next + 1 then some { entryFor := some s, unused := true }
          else if m = s then some { e with
            single := some b.world.next
            entry := some (b.world.next + 1)
            contents := some [] }
          else if m = s then some { e with single := some b.world.next }
          else if m = b.world.next then some { inputs := some [s], unused := true }
          else b.world.ents m
        next := b.world.next + 1 + 1 } : World).addOperation (some outer) s).spawn
        { inputs := some [], scope := some s, op := true }) = G := by
    rw [World.addOperation_eq (e := { e with
            single := some b.world.next
            entry := some (b.world.next + 1)
            contents := some [] }) (ec := eo) (c := c)
      (by simp [hne2]) (by simp [hon2, hos, hon1, heo]) hcc hos]
    unfold World.spawn
    show World.mk _ _ _ = World.mk _ _ _
    congr 1
    funext m
    by_cases m1 : m = b.world.next + 2
    · subst m1; simp
    by_cases m2 : m = b.world.next + 1
    · subst m2; simp [Ne.symm hne2, Ne.symm hon2]
    by_cases m3 : m = b.world.next
    · subst m3
      have : b.world.next ≠ b.world.next + 1 + 1 := by omega
      simp [Ne.symm hne1, Ne.symm hon1, this]
    by_cases m4 : m = outer
    · subst m4; simp [m1, m2, m3]
    by_cases m5 : m = s
    · subst m5; simp [m1, m2, m3, m4]
    simp [m1, m2, m3, m4, m5]
  have hG2 : ((((b.world.spawn { unused := true }).spawn
      { entryFor := some s, unused := true }).spawn {}).setupScope outer s (b.world.next + 1)
        b.world.next).setupTerminal (b.world.next + 2) s = G := by
    have hw3 : ((b.world.spawn { unused := true }).spawn
        { entryFor := some s, unused := true }).spawn {} = { b.world with
        ents := fun m =>
          if m = b.world.next + 2 then some {}
          else if m = b.world.next + 1 then some { entryFor := some s, unused := true }
          else if m = b.world.next then some { unused := true }
          else b.world.ents m
        next := b.world.next + 3 } := rfl
    rw [hw3]
    unfold World.setupScope
    simp only
    have hu1 := World.update_eq (w := ({ b.world with
        ents := fun m =>
          if m = b.world.next + 2 then some {}
          else if m = b.world.next + 1 then some { entryFor := some s, unused := true }
          else if m = b.world.next then some { unused := true }
          else b.world.ents m
        next := b.world.next + 3 } : World)) (id := s) (e := e)
        (f := fun e => { e with entry := some (b.world.next + 1), contents := some [] })
        (by simp [hne1, hne2, hne3, he])
    rw [hu1]
    rw [World.update_eq (id := s) (e := { e with
          entry := some (b.world.next + 1), contents := some [] }) (by simp)]
    rw [World.feed_eq]
    · rw [World.addOperation_eq (e := { e with
            single := some b.world.next
            entry := some (b.world.next + 1)
            contents := some [] }) (ec := eo) (c := c)
        (by simp [hne1]) (by simp [hon1, hon2, hon3, hos, heo]) hcc hos]
      unfold World.setupTerminal World.addOperation
      simp only
      have t1 : b.world.next + 2 ≠ s := Ne.symm hne3
      have t2 : b.world.next + 2 ≠ outer := Ne.symm hon3
      rw [World.update_update (id := b.world.next + 2) (e := {}) (by simp [t1, t2])]
      show World.mk _ _ _ = World.mk _ _ _
      congr 1
      funext m
      by_cases m1 : m = b.world.next + 2
      · subst m1; simp
      by_cases m2 : m = b.world.next + 1
      · subst m2; simp [Ne.symm hne2, Ne.symm hon2]
      by_cases m3 : m = b.world.next
      · subst m3; simp [Ne.symm hne1, Ne.symm hon1]
      by_cases m4 : m = outer
      · subst m4; simp [m1, m2, m3]
      by_cases m5 : m = s
      · subst m5; simp [m1, m2, m3, m4]
      simp [m1, m2, m3, m4, m5]
    · intro t ht
      simp only [List.mem_singleton] at ht
      subst ht
      simp [Ne.symm hne1]
  have h5 : Inv [] { b with
      world := G
      outs := b.outs ++ [⟨b.world.next, outer⟩] ++ [⟨b.world.next + 1, s⟩] }
      (((p.give s outer 1).opens s).skip.place s outer) := by
    rw [← hG1]
    exact h4
  have hGs : G.ents s = some { e with
          single := some b.world.next
          entry := some (b.world.next + 1)
          contents := some []
          op := true
          scope := some outer } := by
    simp [G, hne1, hne2, hne3, Ne.symm hos]
  have h6 := h5.addSlot (s := ⟨s, outer⟩) ⟨_, hGs, rfl, rfl⟩
  have h7 := h6.addSlot (s := ⟨b.world.next + 2, s⟩)
    ⟨{ inputs := some [], scope := some s, op := true }, by
      show G.ents _ = _
      simp [G], rfl, rfl⟩
  have h8 := h7.addScope (s := s) ⟨_, hGs, rfl, rfl⟩
  have h9 := h8.scopeStreams s outer n (by simp)
  have hfin : b.newScope s outer n = Build.scopeStreams { b with
      world := G
      outs := b.outs ++ [⟨b.world.next, outer⟩] ++ [⟨b.world.next + 1, s⟩]
      slots := b.slots ++ [⟨s, outer⟩] ++ [⟨b.world.next + 2, s⟩]
      scopes := b.scopes ++ [s] } s outer n := by
    rw [← hG2]
    simp only [List.append_assoc]
    rfl
  rw [hfin]
  exact h9

/-! ## All calls -/

theorem Inv.call (h : Inv [] b p) {c : Call} {b' : Build} (hd : c.Distinct)
    (hb : b.call c = some b') : Inv [] b' (p.call c) := by
  cases c with
  | node src keys =>
    simp only [Build.call, Option.map_eq_some_iff] at hb
    obtain ⟨⟨b1, s, sc⟩, h1, rfl⟩ := hb
    obtain ⟨h2, h3⟩ := h.source h1
    simp only [Plan.call]
    rw [show (p.source src) = ((p.source src).1, s, sc) from by rw [← h2]]
    exact h3.node hd
  | fork src n =>
    simp only [Build.call, Option.map_eq_some_iff] at hb
    obtain ⟨⟨b1, s, sc⟩, h1, rfl⟩ := hb
    obtain ⟨h2, h3⟩ := h.source h1
    simp only [Plan.call]
    rw [show (p.source src) = ((p.source src).1, s, sc) from by rw [← h2]]
    exact h3.fork n
  | newScope src n =>
    simp only [Build.call, Option.map_eq_some_iff] at hb
    obtain ⟨⟨b1, s, sc⟩, h1, rfl⟩ := hb
    obtain ⟨h2, h3⟩ := h.source h1
    simp only [Plan.call]
    rw [show (p.source src) = ((p.source src).1, s, sc) from by rw [← h2]]
    exact h3.newScope n
  | sink sc =>
    simp only [Build.call] at hb
    split at hb
    · cases hb; exact h.sink (by assumption)
    · cases hb
  | buffer sc =>
    simp only [Build.call] at hb
    split at hb
    · cases hb; exact h.buffer (by assumption)
    · cases hb
  | listener sc bs =>
    simp only [Build.call] at hb
    split at hb
    · rename_i hh
      cases hb
      exact h.listener hh.1 (fun s hs => (hh.2 s hs).1)
    · cases hb
  | branch f =>
    simp only [Build.call] at hb
    split at hb
    · cases hb; exact h.branch (by assumption)
    · cases hb
  | connect o i =>
    simp only [Build.call] at hb
    split at hb
    · rename_i hh
      cases hb
      exact h.connect hh.1 hh.2.1 hh.2.2
    · cases hb

theorem Inv.start : Inv [] Build.start Plan.start := by
  have e0 : Build.start.world.ents 0 = some { entry := some 1, contents := some [], op := true } := rfl
  have e1 : Build.start.world.ents 1 = some { entryFor := some 0, unused := true } := rfl
  have e2 : Build.start.world.ents 2 = some { inputs := some [], scope := some 0, op := true } := rfl
  have en : ∀ m, Build.start.world.ents (m + 3) = none := fun _ => rfl
  have tg : ∀ x, Build.start.world.targets x = [] := by
    intro x
    match x with
    | 0 => rfl
    | 1 => rfl
    | 2 => rfl
    | m + 3 => exact World.targets_none (en m)
  have inn : ∀ x, Build.start.world.inputs x = [] := by
    intro x
    match x with
    | 0 => rfl
    | 1 => rfl
    | 2 => rfl
    | m + 3 => exact World.inputs_none (en m)
  have hent : ∀ s n, Plan.start.entry s = some n → s = 0 ∧ n = 1 := by
    intro s n h
    have h' : (if s = 0 then some 1 else none) = some n := h
    split at h'
    · cases h'; exact ⟨by assumption, rfl⟩
    · cases h'
  constructor
  · rfl
  · intro m hm
    obtain ⟨k, rfl⟩ : ∃ k, m = k + 3 := ⟨m - 3, by have : 3 ≤ m := hm; omega⟩
    exact en k
  · rfl
  · intro x; rw [tg]; rfl
  · intro x y; rw [tg, inn]; simp
  · intro y; rw [inn]; simp
  · intro x y hy; rw [tg] at hy; cases hy
  · intro o ho
    have : o = ⟨1, 0⟩ := by simpa [Build.start] using ho
    subst this
    refine ⟨⟨_, e1, ⟨rfl, rfl, rfl, rfl, rfl, rfl⟩, fun hx => ?_⟩, rfl, rfl⟩
    cases hx
  · simp [Build.start]
  · intro s hs; cases hs
  · intro n; exact .inl rfl
  · intro n _; rfl
  · rintro n (⟨x, hx⟩ | ⟨s, hs⟩)
    · cases hx
    · have := (hent s n hs).2
      subst this
      show 1 < 3
      omega
  · intro s
    match s with
    | 0 => rfl
    | 1 => rfl
    | 2 => rfl
    | m + 3 => rw [en]; rfl
  · intro s n hn
    obtain ⟨-, rfl⟩ := hent s n hn
    show Build.start.world.ents 1 ≠ none ∧ _
    rw [e1]
    exact ⟨by simp, .inr (.inl (by simp [Build.start, Plan.start]))⟩
  · intro o ho s
    have : o = ⟨1, 0⟩ := by simpa [Build.start] using ho
    subst this
    rw [e1]
    show (if s = 0 then some 1 else none) = some 1 ↔ some 0 = some s
    by_cases hs : s = 0
    · simp [hs]
    · simp [hs, Ne.symm hs]
  · intro s n x _ hx; cases hx
  · rintro n (⟨x, hx⟩ | ⟨s, hs⟩) e he ho
    · cases hx
    · have := (hent s n hs).2
      subst this
      have he' : Build.start.world.ents 1 = some e := he
      rw [e1] at he'
      cases he'
      cases ho
  · intro s
    match s with
    | 0 => rfl
    | 1 => rfl
    | 2 => rfl
    | m + 3 => rw [en]; rfl
  · intro s hs
    have : s = ⟨2, 0⟩ := by simpa [Build.start] using hs
    subst this
    exact ⟨_, e2, rfl, rfl⟩
  · intro s hs; cases hs
  · intro s hs; cases hs
  · intro s hs
    have : s = 0 := by simpa [Build.start] using hs
    subst this
    exact ⟨_, e0, rfl, rfl⟩

theorem Inv.run (cs : List Call) : ∀ {b b' : Build} {p : Plan}, Inv [] b p →
    (∀ c ∈ cs, c.Distinct) → b.run cs = some b' → Inv [] b' (p.run cs) := by
  induction cs with
  | nil => intro b b' p h _ hb; cases hb; exact h
  | cons c cs ih =>
    intro b b' p h hd hb
    simp only [Build.run, Option.bind_eq_some_iff] at hb
    obtain ⟨b1, h1, h2⟩ := hb
    exact ih (h.call (hd c List.mem_cons_self) h1) (fun c' hc' => hd c' (List.mem_cons_of_mem _ hc')) h2

end Verif.Wire
