import Verif.Wire.Spec

/-!
# The invariant of the builder, and the steps that keep it
-/

namespace Verif.Wire

/-- Nothing is written on the entity that would make it send or hold anything. -/
structure Blank (e : Ent) : Prop where
  op : e.op = false
  single : e.single = none
  fork : e.fork = none
  streams : e.streams = []
  entry : e.entry = none
  contents : e.contents = none

theorem Blank.targets {e : Ent} (h : Blank e) : e.targets = [] := by
  simp [Ent.targets, h.single, h.fork, h.streams]

/-- An entity to which branches can be added. -/
structure Forks (e : Ent) : Prop where
  single : e.single = none
  streams : e.streams = []
  fork : e.fork.isSome

/-- The world and the handles agree with what was asked for. `pend` are the
entities that a call is turning into operations. -/
structure Inv (pend : List Nat) (b : Build) (p : Plan) : Prop where
  next : p.next = b.world.next
  fresh : ∀ m, b.world.next ≤ m → b.world.ents m = none
  clean : b.world.errors = 0
  tgt : ∀ x, b.world.targets x = (p.outs x).map p.dest
  inp : ∀ x y, x ∈ b.world.inputs y ↔ y ∈ b.world.targets x
  nodupIn : ∀ y, (b.world.inputs y).Nodup
  live : ∀ x y, y ∈ b.world.targets x →
    b.world.ents y ≠ none ∧ (b.world.IsOp y ∨ y ∈ b.outs.map (·.target) ∨ y ∈ pend)
  out : ∀ o ∈ b.outs, (∃ e, b.world.ents o.target = some e ∧ Blank e ∧
      (e.entryFor = none → e.inputs.isSome)) ∧
    p.dest o.target = o.target ∧ p.home o.target = o.scope
  nodup : (b.outs.map (·.target)).Nodup
  pendOk : ∀ s ∈ pend, b.world.ents s ≠ none ∧ ¬ b.world.IsOp s ∧
    s ∉ b.outs.map (·.target) ∧ p.dest s = s
  dest : ∀ n, p.dest n = n ∨ b.world.IsOp (p.dest n)
  destNew : ∀ n, p.next ≤ n → p.dest n = n
  bound : ∀ n, p.Named n → n < p.next
  ent : ∀ s, (b.world.ents s).bind (·.entry) = (p.entry s).map p.dest
  entLive : ∀ s n, p.entry s = some n → b.world.ents (p.dest n) ≠ none ∧
    (b.world.IsOp (p.dest n) ∨ p.dest n ∈ b.outs.map (·.target) ∨ p.dest n ∈ pend)
  entFor : ∀ o ∈ b.outs, ∀ s,
    p.entry s = some o.target ↔ (b.world.ents o.target).bind (·.entryFor) = some s
  entNot : ∀ s n x, p.entry s = some n → n ∉ p.outs x
  home : ∀ n, p.Named n → ∀ e, b.world.ents (p.dest n) = some e → e.op = true →
    e.scope = some (p.home n)
  inside : ∀ s, ((b.world.ents s).bind (·.contents)).getD [] = p.inside s
  slot : ∀ s ∈ b.slots, ∃ e, b.world.ents s.source = some e ∧ e.op = true ∧ e.scope = some s.scope
  forks : ∀ f ∈ b.forks, ∃ e, b.world.ents f.source = some e ∧ e.op = true ∧ Forks e
  buffers : ∀ f ∈ b.buffers, ∃ e, b.world.ents f.source = some e ∧ e.op = true ∧ Forks e
  scopes : ∀ s ∈ b.scopes, ∃ e, b.world.ents s = some e ∧ e.op = true ∧ e.contents.isSome

/-! ## The world -/

theorem World.update_eq {w : World} {id : Nat} {e : Ent} (h : w.ents id = some e) (f : Ent → Ent) :
    w.update id f = { w with ents := fun m => if m = id then some (f e) else w.ents m } := by
  simp [World.update, h]

theorem World.targets_some {w : World} {x : Nat} {e : Ent} (h : w.ents x = some e) :
    w.targets x = e.targets := by
  simp [World.targets, h]

theorem World.inputs_some {w : World} {x : Nat} {e : Ent} (h : w.ents x = some e) :
    w.inputs x = e.inputs.getD [] := by
  simp [World.inputs, h]

theorem World.targets_none {w : World} {x : Nat} (h : w.ents x = none) : w.targets x = [] := by
  simp [World.targets, h]

theorem World.inputs_none {w : World} {x : Nat} (h : w.ents x = none) : w.inputs x = [] := by
  simp [World.inputs, h]

theorem World.targets_congr {w w' : World} {x : Nat} (h : w'.ents x = w.ents x) :
    w'.targets x = w.targets x := by
  simp [World.targets, h]

theorem World.inputs_congr {w w' : World} {x : Nat} (h : w'.ents x = w.ents x) :
    w'.inputs x = w.inputs x := by
  simp [World.inputs, h]

theorem World.isOp_congr {w w' : World} {x : Nat} (h : w'.ents x = w.ents x) :
    w'.IsOp x ↔ w.IsOp x := by
  simp [World.IsOp, h]

theorem World.isOp_some {w : World} {x : Nat} {e : Ent} (h : w.ents x = some e) :
    w.IsOp x ↔ e.op = true := by
  simp [World.IsOp, h]

theorem World.targets_map {w w' : World} {m : Nat}
    (h : (w'.ents m).map Ent.targets = (w.ents m).map Ent.targets) :
    w'.targets m = w.targets m := by
  unfold World.targets
  cases h1 : w'.ents m <;> cases h2 : w.ents m <;> rw [h1, h2] at h <;> simp_all

theorem World.inputs_map {w w' : World} {m : Nat}
    (h : (w'.ents m).map Ent.inputs = (w.ents m).map Ent.inputs) :
    w'.inputs m = w.inputs m := by
  unfold World.inputs
  cases h1 : w'.ents m <;> cases h2 : w.ents m <;> rw [h1, h2] at h <;> simp_all

theorem World.isOp_map {w w' : World} {m : Nat}
    (h : (w'.ents m).map Ent.op = (w.ents m).map Ent.op) : w'.IsOp m ↔ w.IsOp m := by
  unfold World.IsOp
  cases h1 : w'.ents m <;> cases h2 : w.ents m <;> rw [h1, h2] at h <;> simp_all

theorem map_none {α : Type} {x y : Option Ent} {f : Ent → α} (h : x.map f = y.map f) :
    x = none ↔ y = none := by
  cases x <;> cases y <;> simp_all

theorem map_bind {α : Type} {x y : Option Ent} {f : Ent → Option α} (h : x.map f = y.map f) :
    x.bind f = y.bind f := by
  cases x <;> cases y <;> simp_all

/-! ## Consequences of the invariant -/

variable {pend : List Nat} {b : Build} {p : Plan}

theorem Inv.alive_lt (h : Inv pend b p) {m : Nat} (hm : b.world.ents m ≠ none) :
    m < b.world.next := by
  rcases Nat.lt_or_ge m b.world.next with h1 | h1
  · exact h1
  · exact absurd (h.fresh m h1) hm

/-- An entity that is not an operation is where an output leads only when it is
that output. -/
theorem Inv.dest_eq (h : Inv pend b p) {n o : Nat} (ho : ¬ b.world.IsOp o) (he : p.dest n = o) :
    n = o := by
  rcases h.dest n with h1 | h1
  · exact h1.symm.trans he
  · exact absurd (he ▸ h1) ho

theorem Inv.out_not_op (h : Inv pend b p) {o : Output} (ho : o ∈ b.outs) :
    ¬ b.world.IsOp o.target := by
  obtain ⟨⟨e, he, hb, -⟩, -⟩ := h.out o ho
  rw [World.isOp_some he, hb.op]
  simp

/-! ## Taking the source of an operation -/

theorem mem_map_erase {l : List Output} {o : Output} (hn : (l.map (·.target)).Nodup)
    (ho : o ∈ l) {m : Nat} :
    m ∈ (l.erase o).map (·.target) ↔ m ∈ l.map (·.target) ∧ m ≠ o.target := by
  induction l with
  | nil => simp at ho
  | cons a l ih =>
    rw [List.map_cons, List.nodup_cons] at hn
    by_cases hao : a = o
    · subst hao
      simp only [List.erase_cons_head, List.map_cons, List.mem_cons]
      constructor
      · intro hm
        exact ⟨.inr hm, fun hh => hn.1 (hh ▸ hm)⟩
      · rintro ⟨h1 | h1, h2⟩
        · exact absurd h1 h2
        · exact h1
    · have ho' : o ∈ l := by
        rcases List.mem_cons.mp ho with h1 | h1
        · exact absurd h1.symm hao
        · exact h1
      rw [List.erase_cons_tail (by simpa using hao)]
      simp only [List.map_cons, List.mem_cons, ih hn.2 ho']
      constructor
      · rintro (h1 | h1)
        · refine ⟨.inl h1, fun hh => hn.1 ?_⟩
          rw [← h1, hh]
          exact List.mem_map_of_mem ho'
        · exact ⟨.inr h1.1, h1.2⟩
      · rintro ⟨h1 | h1, h2⟩
        · exact .inl h1
        · exact .inr ⟨h1, h2⟩

theorem nodup_erase {l : List Output} {o : Output} (hn : (l.map (·.target)).Nodup) :
    ((l.erase o).map (·.target)).Nodup :=
  hn.sublist (List.erase_sublist.map _)

/-- An output is taken, to be turned into an operation. -/
theorem Inv.take (h : Inv [] b p) {o : Output} (ho : o ∈ b.outs) :
    Inv [o.target] { b with outs := b.outs.erase o } p := by
  have key : ∀ y, y ∈ b.outs.map (·.target) →
      y ∈ (b.outs.erase o).map (·.target) ∨ y ∈ [o.target] := by
    intro y hy
    by_cases hyo : y = o.target
    · right; simp [hyo]
    · left; exact (mem_map_erase h.nodup ho).mpr ⟨hy, hyo⟩
  have sub : ∀ o' ∈ b.outs.erase o, o' ∈ b.outs := fun o' ho' => List.mem_of_mem_erase ho'
  constructor
  · exact h.next
  · exact h.fresh
  · exact h.clean
  · exact h.tgt
  · exact h.inp
  · exact h.nodupIn
  · intro x y hy
    obtain ⟨h1, h2⟩ := h.live x y hy
    refine ⟨h1, ?_⟩
    rcases h2 with h2 | h2 | h2
    · exact .inl h2
    · exact .inr (key y h2)
    · simp at h2
  · exact fun o' ho' => h.out o' (sub o' ho')
  · exact nodup_erase h.nodup
  · intro s hs
    simp only [List.mem_singleton] at hs
    subst hs
    obtain ⟨⟨e, he, -, -⟩, hd, -⟩ := h.out o ho
    refine ⟨by rw [he]; simp, h.out_not_op ho, ?_, hd⟩
    intro hm
    exact ((mem_map_erase h.nodup ho).mp hm).2 rfl
  · exact h.dest
  · exact h.destNew
  · exact h.bound
  · exact h.ent
  · intro s n hn
    obtain ⟨h1, h2⟩ := h.entLive s n hn
    refine ⟨h1, ?_⟩
    rcases h2 with h2 | h2 | h2
    · exact .inl h2
    · exact .inr (key _ h2)
    · simp at h2
  · exact fun o' ho' => h.entFor o' (sub o' ho')
  · exact h.entNot
  · exact h.home
  · exact h.inside
  · exact h.slot
  · exact h.forks
  · exact h.buffers
  · exact h.scopes

/-! ## A new entity -/

theorem World.spawn_old {w : World} {e : Ent} {m : Nat} (h : m ≠ w.next) :
    (w.spawn e).ents m = w.ents m := by
  simp [World.spawn, h]

theorem World.spawn_new {w : World} {e : Ent} : (w.spawn e).ents w.next = some e := by
  simp [World.spawn]

/-- An entity is spawned that is an operation, or is to be turned into one. -/
theorem Inv.spawn (h : Inv [] b p) {e0 : Ent} {pend' : List Nat} (ht : e0.targets = [])
    (hi : e0.inputs.getD [] = []) (hen : e0.entry = none) (hco : e0.contents = none)
    (hp : ∀ s ∈ pend', s = b.world.next ∧ e0.op = false) :
    Inv pend' { b with world := b.world.spawn e0 } p.skip := by
  have hnone : b.world.ents b.world.next = none := h.fresh _ (Nat.le_refl _)
  have old : ∀ m, b.world.ents m ≠ none → (b.world.spawn e0).ents m = b.world.ents m := by
    intro m hm
    exact World.spawn_old (fun hh => hm (hh ▸ hnone))
  have tg : ∀ x, (b.world.spawn e0).targets x = b.world.targets x := by
    intro x
    by_cases hx : x = b.world.next
    · subst hx
      rw [World.targets_none hnone, World.targets_some World.spawn_new, ht]
    · exact World.targets_congr (World.spawn_old hx)
  have inn : ∀ x, (b.world.spawn e0).inputs x = b.world.inputs x := by
    intro x
    by_cases hx : x = b.world.next
    · subst hx
      rw [World.inputs_none hnone, World.inputs_some World.spawn_new, hi]
    · exact World.inputs_congr (World.spawn_old hx)
  have op : ∀ x, b.world.IsOp x → (b.world.spawn e0).IsOp x := by
    intro x hx
    obtain ⟨e, he, ho⟩ := hx
    exact ⟨e, by rw [old x (by rw [he]; simp), he], ho⟩
  have ol : ∀ {s : Nat} {e : Ent}, b.world.ents s = some e → (b.world.spawn e0).ents s = some e := by
    intro s e he
    rw [old s (by rw [he]; simp), he]
  constructor
  · simp only [Plan.skip, World.spawn, h.next]
  · intro m hm
    have hm' : b.world.next + 1 ≤ m := hm
    show (b.world.spawn e0).ents m = none
    rw [World.spawn_old (by omega)]
    exact h.fresh m (by omega)
  · exact h.clean
  · intro x; rw [tg]; exact h.tgt x
  · intro x y; rw [tg, inn]; exact h.inp x y
  · intro y; rw [inn]; exact h.nodupIn y
  · intro x y hy
    rw [tg] at hy
    obtain ⟨h1, h2⟩ := h.live x y hy
    refine ⟨by show (b.world.spawn e0).ents y ≠ none; rw [old y h1]; exact h1, ?_⟩
    rcases h2 with h2 | h2 | h2
    · exact .inl (op y h2)
    · exact .inr (.inl h2)
    · simp at h2
  · intro o ho
    obtain ⟨⟨e, he, h1⟩, h2⟩ := h.out o ho
    exact ⟨⟨e, ol he, h1⟩, h2⟩
  · exact h.nodup
  · intro s hs
    obtain ⟨rfl, hf⟩ := hp s hs
    refine ⟨?_, ?_, ?_, h.destNew _ (by rw [h.next]; exact Nat.le_refl _)⟩
    · show (b.world.spawn e0).ents b.world.next ≠ none
      rw [World.spawn_new]; simp
    · rw [World.isOp_some World.spawn_new, hf]; simp
    · intro hm
      obtain ⟨o, ho, he⟩ := List.mem_map.mp hm
      obtain ⟨⟨e, hh, -⟩, -⟩ := h.out o ho
      rw [he, hnone] at hh
      cases hh
  · intro n
    rcases h.dest n with h1 | h1
    · exact .inl h1
    · exact .inr (op _ h1)
  · intro n hn
    have hn' : p.next + 1 ≤ n := hn
    exact h.destNew n (by omega)
  · intro n hn
    have := h.bound n hn
    show n < p.next + 1
    omega
  · intro s
    show ((b.world.spawn e0).ents s).bind (·.entry) = (p.entry s).map p.dest
    rw [← h.ent s]
    by_cases hx : s = b.world.next
    · subst hx
      rw [World.spawn_new, hnone]; exact hen
    · rw [World.spawn_old hx]
  · intro s n hn
    obtain ⟨h1, h2⟩ := h.entLive s n hn
    refine ⟨by show (b.world.spawn e0).ents (p.dest n) ≠ none; rw [old _ h1]; exact h1, ?_⟩
    rcases h2 with h2 | h2 | h2
    · exact .inl (op _ h2)
    · exact .inr (.inl h2)
    · simp at h2
  · intro o ho s
    obtain ⟨⟨e, he, -⟩, -⟩ := h.out o ho
    have := h.entFor o ho s
    rw [he] at this
    show p.entry s = some o.target ↔ ((b.world.spawn e0).ents o.target).bind (·.entryFor) = some s
    rw [ol he]
    exact this
  · exact h.entNot
  · intro n hn e he ho
    by_cases hx : p.dest n = b.world.next
    · have hb := h.bound n hn
      rw [h.next] at hb
      rcases h.dest n with h1 | h1
      · omega
      · obtain ⟨e1, he1, -⟩ := h1
        rw [hx, hnone] at he1; cases he1
    · have he' : (b.world.spawn e0).ents (p.dest n) = some e := he
      rw [World.spawn_old hx] at he'
      exact h.home n hn e he' ho
  · intro s
    show (((b.world.spawn e0).ents s).bind (·.contents)).getD [] = p.inside s
    rw [← h.inside s]
    by_cases hx : s = b.world.next
    · subst hx
      rw [World.spawn_new, hnone]
      show (e0.contents).getD [] = []
      rw [hco]; rfl
    · rw [World.spawn_old hx]
  · intro s hs
    obtain ⟨e, he, h1⟩ := h.slot s hs
    exact ⟨e, ol he, h1⟩
  · intro s hs
    obtain ⟨e, he, h1⟩ := h.forks s hs
    exact ⟨e, ol he, h1⟩
  · intro s hs
    obtain ⟨e, he, h1⟩ := h.buffers s hs
    exact ⟨e, ol he, h1⟩
  · intro s hs
    obtain ⟨e, he, h1⟩ := h.scopes s hs
    exact ⟨e, ol he, h1⟩

/-! ## New outputs -/

/-- `w'` is `w` with `n` new entities to which `s` sends. -/
structure Attached (w w' : World) (s n : Nat) : Prop where
  next : w'.next = w.next + n
  errors : w'.errors = w.errors
  new : ∀ m ∈ List.range' w.next n, ∃ e, w'.ents m = some e ∧ e.inputs = some [s] ∧ Blank e ∧
    e.entryFor = none
  old : ∀ m, m ∉ List.range' w.next n → m ≠ s → w'.ents m = w.ents m
  src : ∃ e e', w.ents s = some e ∧ w'.ents s = some e' ∧
    e'.targets = e.targets ++ List.range' w.next n ∧ e'.inputs = e.inputs ∧
    e'.entryFor = e.entryFor ∧ e'.entry = e.entry ∧ e'.contents = e.contents ∧
    e'.scope = e.scope ∧ e'.op = e.op ∧ (Forks e → Forks e')

theorem Inv.attach (h : Inv pend b p) {w' : World} {s sc n : Nat} (ha : Attached b.world w' s n)
    (hs : s ∉ b.outs.map (·.target)) :
    Inv pend { b with world := w', outs := b.outs ++ (List.range' b.world.next n).map (⟨·, sc⟩) }
      (p.give s sc n) := by
  obtain ⟨e, e', he, he', htg, hin, hef, hen, hco, hsc, hop, hfk⟩ := ha.src
  have hlt : s < b.world.next := h.alive_lt (by rw [he]; simp)
  have hmem : ∀ m, m ∈ List.range' b.world.next n ↔ b.world.next ≤ m ∧ m < b.world.next + n := by
    intro m; rw [List.mem_range'_1]
  have hsn : s ∉ List.range' b.world.next n := by rw [hmem]; omega
  have notnew : ∀ m, b.world.ents m ≠ none → m ∉ List.range' b.world.next n := by
    intro m hm
    rw [hmem]
    have := h.alive_lt hm
    omega
  have deadnew : ∀ m, m ∈ List.range' b.world.next n → b.world.ents m = none := by
    intro m hm
    exact h.fresh m ((hmem m).mp hm).1
  -- the world, seen through its projections
  have tg : ∀ x, w'.targets x =
      b.world.targets x ++ if x = s then List.range' b.world.next n else [] := by
    intro x
    by_cases hx : x = s
    · subst hx
      rw [World.targets_some he', World.targets_some he, htg, if_pos rfl]
    · rw [if_neg hx, List.append_nil]
      by_cases hn : x ∈ List.range' b.world.next n
      · obtain ⟨e1, he1, -, hb, -⟩ := ha.new x hn
        rw [World.targets_some he1, hb.targets, World.targets_none (deadnew x hn)]
      · exact World.targets_congr (ha.old x hn hx)
  have inn : ∀ y, w'.inputs y =
      if y ∈ List.range' b.world.next n then [s] else b.world.inputs y := by
    intro y
    by_cases hn : y ∈ List.range' b.world.next n
    · obtain ⟨e1, he1, hi, -⟩ := ha.new y hn
      rw [World.inputs_some he1, hi, if_pos hn]; rfl
    · rw [if_neg hn]
      by_cases hy : y = s
      · subst hy
        rw [World.inputs_some he', World.inputs_some he, hin]
      · exact World.inputs_congr (ha.old y hn hy)
  have op : ∀ x, w'.IsOp x ↔ b.world.IsOp x := by
    intro x
    by_cases hx : x = s
    · subst hx
      rw [World.isOp_some he', World.isOp_some he, hop]
    · by_cases hn : x ∈ List.range' b.world.next n
      · obtain ⟨e1, he1, -, hb, -⟩ := ha.new x hn
        rw [World.isOp_some he1, hb.op]
        simp [World.IsOp, deadnew x hn]
      · exact World.isOp_congr (ha.old x hn hx)
  have alive : ∀ x, b.world.ents x ≠ none → w'.ents x ≠ none := by
    intro x hx
    by_cases hxs : x = s
    · subst hxs; rw [he']; simp
    · rw [ha.old x (notnew x hx) hxs]; exact hx
  have proj : ∀ {α : Type} (f : Ent → Option α), f e' = f e →
      (∀ e1, Blank e1 → e1.entryFor = none → f e1 = none) → ∀ x,
      (w'.ents x).bind f = (b.world.ents x).bind f := by
    intro α f hf hb x
    by_cases hx : x = s
    · subst hx; rw [he', he]; exact hf
    · by_cases hn : x ∈ List.range' b.world.next n
      · obtain ⟨e1, he1, -, h1, h2⟩ := ha.new x hn
        rw [he1, deadnew x hn]; exact hb e1 h1 h2
      · rw [ha.old x hn hx]
  have outs_mem : ∀ y, y ∈ (b.outs ++ (List.range' b.world.next n).map
      (fun t => (⟨t, sc⟩ : Output))).map (·.target) ↔
      y ∈ b.outs.map (·.target) ∨ y ∈ List.range' b.world.next n := by
    intro y
    simp only [List.map_append, List.mem_append, List.map_map]
    have : (fun x : Output => x.target) ∘ (fun t => (⟨t, sc⟩ : Output)) = id := rfl
    rw [this, List.map_id]
  have named : ∀ m, (p.give s sc n).Named m ↔ p.Named m ∨ m ∈ List.range' b.world.next n := by
    intro m
    unfold Plan.Named
    simp only [Plan.give, set, h.next]
    constructor
    · rintro (⟨x, hx⟩ | hx)
      · by_cases hxs : x = s
        · rw [if_pos hxs, List.mem_append] at hx
          rcases hx with hx | hx
          · exact .inl (.inl ⟨s, hx⟩)
          · exact .inr hx
        · rw [if_neg hxs] at hx
          exact .inl (.inl ⟨x, hx⟩)
      · exact .inl (.inr hx)
    · rintro ((⟨x, hx⟩ | hx) | hx)
      · refine .inl ⟨x, ?_⟩
        by_cases hxs : x = s
        · rw [if_pos hxs, List.mem_append]; exact .inl (hxs ▸ hx)
        · rw [if_neg hxs]; exact hx
      · exact .inr hx
      · exact .inl ⟨s, by rw [if_pos rfl, List.mem_append]; exact .inr hx⟩
  have hnext : (p.give s sc n).next = b.world.next + n := by simp only [Plan.give, h.next]
  have hgh : ∀ m, (p.give s sc n).home m =
      if m ∈ List.range' b.world.next n then sc else p.home m := by
    intro m; simp only [Plan.give, h.next]
  have hgo : ∀ x, (p.give s sc n).outs x =
      p.outs x ++ if x = s then List.range' b.world.next n else [] := by
    intro x
    simp only [Plan.give, set, h.next]
    by_cases hx : x = s
    · subst hx; rw [if_pos rfl, if_pos rfl]
    · rw [if_neg hx, if_neg hx, List.append_nil]
  have idmap : (List.range' b.world.next n).map p.dest = List.range' b.world.next n := by
    rw [List.map_congr_left (g := id), List.map_id]
    intro m hm
    exact h.destNew m (by rw [h.next]; exact ((hmem m).mp hm).1)
  constructor
  · rw [hnext]; exact ha.next.symm
  · intro m hm
    have hm' : w'.next ≤ m := hm
    rw [ha.next] at hm'
    show w'.ents m = none
    rw [ha.old m (by rw [hmem]; omega) (by omega)]
    exact h.fresh m (by omega)
  · exact ha.errors.trans h.clean
  · intro x
    rw [hgo]
    show w'.targets x = (p.outs x ++ _).map p.dest
    rw [tg, h.tgt, List.map_append]
    congr 1
    split
    · exact idmap.symm
    · rfl
  · intro x y
    show x ∈ w'.inputs y ↔ y ∈ w'.targets x
    rw [tg, inn, List.mem_append]
    by_cases hn : y ∈ List.range' b.world.next n
    · rw [if_pos hn]
      have hnot : y ∉ b.world.targets x := fun hh => (h.live x y hh).1 (deadnew y hn)
      by_cases hx : x = s
      · subst hx; simp [hn]
      · simp [hx, hnot]
    · rw [if_neg hn, h.inp]
      by_cases hx : x = s
      · subst hx; simp [hn]
      · simp [hx]
  · intro y
    show (w'.inputs y).Nodup
    rw [inn]
    split
    · simp
    · exact h.nodupIn y
  · intro x y hy
    have hy' : y ∈ w'.targets x := hy
    rw [tg, List.mem_append] at hy'
    show w'.ents y ≠ none ∧ (w'.IsOp y ∨ _ ∨ _)
    rw [outs_mem]
    rcases hy' with hy' | hy'
    · obtain ⟨h1, h2⟩ := h.live x y hy'
      refine ⟨alive y h1, ?_⟩
      rcases h2 with h2 | h2 | h2
      · exact .inl ((op y).mpr h2)
      · exact .inr (.inl (.inl h2))
      · exact .inr (.inr h2)
    · by_cases hx : x = s
      · rw [if_pos hx] at hy'
        obtain ⟨e1, he1, -⟩ := ha.new y hy'
        exact ⟨by rw [he1]; simp, .inr (.inl (.inr hy'))⟩
      · rw [if_neg hx] at hy'; cases hy'
  · intro o ho
    show (∃ e, w'.ents o.target = some e ∧ _) ∧ p.dest o.target = _ ∧ _
    rw [hgh]
    rcases List.mem_append.mp ho with ho | ho
    · obtain ⟨⟨e1, he1, h1⟩, h2, h3⟩ := h.out o ho
      have hne : b.world.ents o.target ≠ none := by rw [he1]; simp
      have hos : o.target ≠ s := fun hh => hs (hh ▸ List.mem_map_of_mem ho)
      refine ⟨⟨e1, ?_, h1⟩, h2, ?_⟩
      · rw [ha.old _ (notnew _ hne) hos]; exact he1
      · rw [if_neg (notnew _ hne)]; exact h3
    · obtain ⟨t, ht, rfl⟩ := List.mem_map.mp ho
      obtain ⟨e1, he1, hi, hb, -⟩ := ha.new t ht
      refine ⟨⟨e1, he1, hb, fun _ => by rw [hi]; rfl⟩, ?_, ?_⟩
      · exact h.destNew t (by rw [h.next]; exact ((hmem t).mp ht).1)
      · rw [if_pos ht]
  · show ((b.outs ++ _).map (·.target)).Nodup
    rw [List.map_append, List.map_map]
    have : (fun x : Output => x.target) ∘ (fun t => (⟨t, sc⟩ : Output)) = id := rfl
    rw [this, List.map_id, List.nodup_append]
    refine ⟨h.nodup, List.nodup_range', ?_⟩
    intro a ha' c hc hac
    subst hac
    obtain ⟨o, ho, rfl⟩ := List.mem_map.mp ha'
    obtain ⟨⟨e1, he1, -⟩, -⟩ := h.out o ho
    rw [deadnew _ hc] at he1; cases he1
  · intro m hm
    obtain ⟨h1, h2, h3, h4⟩ := h.pendOk m hm
    refine ⟨alive m h1, fun hh => h2 ((op m).mp hh), ?_, h4⟩
    rw [outs_mem]
    rintro (hh | hh)
    · exact h3 hh
    · exact h1 (deadnew m hh)
  · intro m
    rcases h.dest m with h1 | h1
    · exact .inl h1
    · exact .inr ((op _).mpr h1)
  · intro m hm
    rw [hnext] at hm
    exact h.destNew m (by rw [h.next]; omega)
  · intro m hm
    rw [hnext]
    rcases (named m).mp hm with hm | hm
    · have := h.bound m hm
      rw [h.next] at this
      omega
    · exact ((hmem m).mp hm).2
  · intro x
    show (w'.ents x).bind (·.entry) = (p.entry x).map p.dest
    rw [proj (·.entry) hen (fun e1 hb _ => hb.entry)]
    exact h.ent x
  · intro x m hm
    obtain ⟨h1, h2⟩ := h.entLive x m hm
    refine ⟨alive _ h1, ?_⟩
    rcases h2 with h2 | h2 | h2
    · exact .inl ((op _).mpr h2)
    · exact .inr (.inl ((outs_mem _).mpr (.inl h2)))
    · exact .inr (.inr h2)
  · intro o ho x
    show p.entry x = some o.target ↔ (w'.ents o.target).bind (·.entryFor) = some x
    rcases List.mem_append.mp ho with ho | ho
    · rw [proj (·.entryFor) hef (fun e1 _ hb => hb)]
      exact h.entFor o ho x
    · obtain ⟨t, ht, rfl⟩ := List.mem_map.mp ho
      obtain ⟨e1, he1, -, -, hb⟩ := ha.new t ht
      rw [he1]
      constructor
      · intro hh
        have := h.bound t (.inr ⟨x, hh⟩)
        rw [h.next] at this
        have := (hmem t).mp ht
        omega
      · intro hh
        have hh' : e1.entryFor = some x := hh
        rw [hb] at hh'; cases hh'
  · intro x m y hm
    rw [hgo, List.mem_append]
    rintro (hh | hh)
    · exact h.entNot x m y hm hh
    · by_cases hy : y = s
      · rw [if_pos hy] at hh
        have := h.bound m (.inr ⟨x, hm⟩)
        rw [h.next] at this
        have := (hmem m).mp hh
        omega
      · rw [if_neg hy] at hh; cases hh
  · intro m hm e1 he1 ho
    have he1' : w'.ents (p.dest m) = some e1 := he1
    rw [hgh]
    have hop1 : b.world.IsOp (p.dest m) := (op _).mp ⟨e1, he1', ho⟩
    rcases (named m).mp hm with hm | hm
    · rw [if_neg (by
        intro hh
        have := h.bound m hm
        rw [h.next] at this
        have := (hmem m).mp hh
        omega)]
      obtain ⟨e2, he2, ho2⟩ := hop1
      have := h.home m hm e2 he2 ho2
      rw [← this]
      by_cases hx : p.dest m = s
      · rw [hx] at he1' he2
        rw [he'] at he1'; rw [he] at he2
        cases he1'; cases he2
        exact hsc
      · rw [ha.old _ (notnew _ (by rw [he2]; simp)) hx, he2] at he1'
        cases he1'; rfl
    · have hd := h.destNew m (by rw [h.next]; exact ((hmem m).mp hm).1)
      rw [hd] at hop1
      obtain ⟨e2, he2, -⟩ := hop1
      rw [deadnew m hm] at he2; cases he2
  · intro x
    show ((w'.ents x).bind (·.contents)).getD [] = p.inside x
    rw [proj (·.contents) hco (fun e1 hb _ => hb.contents)]
    exact h.inside x
  · intro t ht
    obtain ⟨e1, he1, h1, h2⟩ := h.slot t ht
    show ∃ e, w'.ents t.source = some e ∧ _
    by_cases hx : t.source = s
    · rw [hx] at he1 ⊢
      rw [he] at he1; cases he1
      exact ⟨e', he', hop.trans h1, hsc.trans h2⟩
    · rw [ha.old _ (notnew _ (by rw [he1]; simp)) hx]
      exact ⟨e1, he1, h1, h2⟩
  · intro t ht
    obtain ⟨e1, he1, h1, h2⟩ := h.forks t ht
    show ∃ e, w'.ents t.source = some e ∧ _
    by_cases hx : t.source = s
    · rw [hx] at he1 ⊢
      rw [he] at he1; cases he1
      exact ⟨e', he', hop.trans h1, hfk h2⟩
    · rw [ha.old _ (notnew _ (by rw [he1]; simp)) hx]
      exact ⟨e1, he1, h1, h2⟩
  · intro t ht
    obtain ⟨e1, he1, h1, h2⟩ := h.buffers t ht
    show ∃ e, w'.ents t.source = some e ∧ _
    by_cases hx : t.source = s
    · rw [hx] at he1 ⊢
      rw [he] at he1; cases he1
      exact ⟨e', he', hop.trans h1, hfk h2⟩
    · rw [ha.old _ (notnew _ (by rw [he1]; simp)) hx]
      exact ⟨e1, he1, h1, h2⟩
  · intro t ht
    obtain ⟨e1, he1, h1, h2⟩ := h.scopes t ht
    show ∃ e, w'.ents t = some e ∧ _
    by_cases hx : t = s
    · rw [hx] at he1 ⊢
      rw [he] at he1; cases he1
      exact ⟨e', he', hop.trans h1, by rw [hco]; exact h2⟩
    · rw [ha.old _ (notnew _ (by rw [he1]; simp)) hx]
      exact ⟨e1, he1, h1, h2⟩

end Verif.Wire
