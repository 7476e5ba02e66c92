import Verif.Wire.Steps

/-!
# Connecting an output keeps the invariant of the builder
-/

namespace Verif.Wire

variable {b : Build} {p : Plan}

theorem redirect_targets (o i : Nat) (e : Ent) :
    (redirect o i e).targets = e.targets.map (swap o i) := by
  unfold redirect Ent.targets
  cases e.single <;> cases e.fork <;> simp [Function.comp_def]

theorem happened_iff (o : Nat) (e : Ent) : happened o e = true ↔ o ∈ e.targets := by
  unfold happened Ent.targets
  simp only [Bool.or_eq_true, beq_iff_eq, List.contains_iff_mem, List.any_eq_true,
    List.mem_append, Option.mem_toList, List.mem_map]

theorem redirect_addInput (o i x : Nat) (e : Ent) :
    redirect o i (addInput x e) = addInput x (redirect o i e) := by
  unfold addInput
  cases h : e.inputs with
  | none => simp [redirect, h]
  | some l => simp [redirect, h]

/-- All of `xs` are added to the inputs. -/
def addInputs (xs : List Nat) (e : Ent) : Ent := xs.foldl (fun e x => addInput x e) e

theorem redirect_addInputs (o i : Nat) (xs : List Nat) (e : Ent) :
    redirect o i (addInputs xs e) = addInputs xs (redirect o i e) := by
  induction xs generalizing e with
  | nil => rfl
  | cons x xs ih =>
    show redirect o i (addInputs xs (addInput x e)) = addInputs xs (addInput x (redirect o i e))
    rw [ih, redirect_addInput]

theorem addInputs_fields (xs : List Nat) (e : Ent) :
    (addInputs xs e).entry = e.entry ∧ (addInputs xs e).entryFor = e.entryFor ∧
    (addInputs xs e).contents = e.contents ∧ (addInputs xs e).scope = e.scope ∧
    (addInputs xs e).single = e.single ∧ (addInputs xs e).fork = e.fork ∧
    (addInputs xs e).streams = e.streams ∧ (addInputs xs e).op = e.op := by
  induction xs generalizing e with
  | nil => exact ⟨rfl, rfl, rfl, rfl, rfl, rfl, rfl, rfl⟩
  | cons x xs ih =>
    obtain ⟨h1, h2, h3, h4, h5, h6, h7, h8⟩ := ih (addInput x e)
    obtain ⟨f1, f2, f3, f4, f5, f6, f7⟩ := addInput_fields x e
    have f8 := addInput_op x e
    exact ⟨h1.trans f1, h2.trans f2, h3.trans f3, h4.trans f4, h5.trans f5, h6.trans f6,
      h7.trans f7, h8.trans f8⟩

theorem addInputs_targets (xs : List Nat) (e : Ent) : (addInputs xs e).targets = e.targets := by
  obtain ⟨-, -, -, -, h5, h6, h7, -⟩ := addInputs_fields xs e
  simp only [Ent.targets, h5, h6, h7]

theorem addInputs_mem (xs : List Nat) (e : Ent) (x : Nat) :
    x ∈ (addInputs xs e).inputs.getD [] ↔ x ∈ e.inputs.getD [] ∨ x ∈ xs := by
  induction xs generalizing e with
  | nil => simp [addInputs]
  | cons y ys ih =>
    show x ∈ (addInputs ys (addInput y e)).inputs.getD [] ↔ _
    rw [ih, addInput_inputs, List.mem_cons]
    split
    · rename_i hy
      constructor
      · rintro (h | h)
        · exact .inl h
        · exact .inr (.inr h)
      · rintro (h | rfl | h)
        · exact .inl h
        · exact .inl hy
        · exact .inr h
    · rw [List.mem_append, List.mem_singleton, or_assoc]

theorem addInputs_nodup (xs : List Nat) (e : Ent) (h : (e.inputs.getD []).Nodup) :
    ((addInputs xs e).inputs.getD []).Nodup := by
  induction xs generalizing e with
  | nil => exact h
  | cons y ys ih =>
    refine ih (addInput y e) ?_
    rw [addInput_inputs]
    split
    · exact h
    · rename_i hy
      rw [List.nodup_append]
      refine ⟨h, by simp, ?_⟩
      intro a ha c hc hac
      simp only [List.mem_singleton] at hc
      exact hy (hc ▸ hac ▸ ha)

/-- What becomes of each entity in the loop of `try_connect`. -/
def moved (o i : Nat) (xs : List Nat) (m : Nat) (e : Ent) : Ent :=
  let e := if m ∈ xs then redirect o i e else e
  if m = i then addInputs xs e else e

theorem moved_fields (o i : Nat) (xs : List Nat) (m : Nat) (e : Ent) :
    (moved o i xs m e).op = e.op ∧ (moved o i xs m e).scope = e.scope ∧
    (moved o i xs m e).entry = e.entry ∧ (moved o i xs m e).entryFor = e.entryFor ∧
    (moved o i xs m e).contents = e.contents := by
  unfold moved
  by_cases h1 : m ∈ xs
  · rw [if_pos h1]
    by_cases h2 : m = i
    · rw [if_pos h2]
      obtain ⟨f1, f2, f3, f4, -, -, -, f8⟩ := addInputs_fields xs (redirect o i e)
      rw [f1, f2, f3, f4, f8]
      exact ⟨rfl, rfl, rfl, rfl, rfl⟩
    · rw [if_neg h2]
      exact ⟨rfl, rfl, rfl, rfl, rfl⟩
  · rw [if_neg h1]
    by_cases h2 : m = i
    · rw [if_pos h2]
      obtain ⟨f1, f2, f3, f4, -, -, -, f8⟩ := addInputs_fields xs e
      rw [f1, f2, f3, f4, f8]
      exact ⟨rfl, rfl, rfl, rfl, rfl⟩
    · rw [if_neg h2]
      exact ⟨rfl, rfl, rfl, rfl, rfl⟩

theorem moved_targets (o i : Nat) (xs : List Nat) (m : Nat) (e : Ent) :
    (moved o i xs m e).targets = if m ∈ xs then e.targets.map (swap o i) else e.targets := by
  unfold moved
  by_cases h1 : m ∈ xs
  · rw [if_pos h1, if_pos h1]
    by_cases h2 : m = i
    · rw [if_pos h2, addInputs_targets, redirect_targets]
    · rw [if_neg h2, redirect_targets]
  · rw [if_neg h1, if_neg h1]
    by_cases h2 : m = i
    · rw [if_pos h2, addInputs_targets]
    · rw [if_neg h2]

theorem moved_forks {o i : Nat} {xs : List Nat} {m : Nat} {e : Ent} (hf : Forks e) :
    Forks (moved o i xs m e) := by
  have hr : Forks (redirect o i e) := by
    refine ⟨?_, ?_, ?_⟩
    · simp [redirect, hf.single]
    · simp [redirect, hf.streams]
    · simpa [redirect] using hf.fork
  have ha : ∀ e1, Forks e1 → Forks (addInputs xs e1) := by
    intro e1 h1
    obtain ⟨-, -, -, -, f5, f6, f7, -⟩ := addInputs_fields xs e1
    exact ⟨f5.trans h1.single, f7.trans h1.streams, by rw [f6]; exact h1.fork⟩
  unfold moved
  by_cases h1 : m ∈ xs
  · rw [if_pos h1]
    by_cases h2 : m = i
    · rw [if_pos h2]; exact ha _ hr
    · rw [if_neg h2]; exact hr
  · rw [if_neg h1]
    by_cases h2 : m = i
    · rw [if_pos h2]; exact ha _ hf
    · rw [if_neg h2]; exact hf

theorem World.reconnect_eq {w : World} {o i x : Nat} {e ei : Ent} (hx : w.ents x = some e)
    (hi : w.ents i = some ei) (ho : o ∈ e.targets) :
    (w.reconnect o i x) = { w with ents := fun m => (w.ents m).map (moved o i [x] m) } := by
  unfold World.reconnect
  simp only [hx, (happened_iff o e).mpr ho, if_true]
  rw [World.update_eq hx]
  by_cases hix : i = x
  · subst hix
    rw [World.update_eq (e := redirect o i e) (by simp)]
    congr 1
    funext m
    by_cases hm : m = i
    · subst hm; simp [hx, moved, addInputs]
    · cases h : w.ents m <;> simp [hm, h, moved]
  · rw [World.update_eq (e := ei) (by simp [hix, hi])]
    congr 1
    funext m
    by_cases hm : m = i
    · subst hm; simp [hi, moved, addInputs, hix]
    · by_cases hmx : m = x
      · subst hmx; simp [hx, moved, hm]
      · cases h : w.ents m <;> simp [hm, hmx, h, moved]

theorem World.reconnectAll_eq {o i : Nat} (xs : List Nat) : ∀ {w : World}, xs.Nodup →
    (∀ x ∈ xs, ∃ e, w.ents x = some e ∧ o ∈ e.targets) → w.ents i ≠ none →
    w.reconnectAll o i xs = { w with ents := fun m => (w.ents m).map (moved o i xs m) } := by
  induction xs with
  | nil =>
    intro w _ _ _
    show w = _
    have : (fun m => (w.ents m).map (moved o i [] m)) = w.ents := by
      funext m
      cases h : w.ents m with
      | none => rfl
      | some e =>
        show some (moved o i [] m e) = some e
        unfold moved
        simp [addInputs]
    rw [this]
  | cons x xs ih =>
    intro w hn hx hi
    rw [List.nodup_cons] at hn
    obtain ⟨e, he, ho⟩ := hx x (List.mem_cons_self)
    obtain ⟨ei, hei⟩ := Option.ne_none_iff_exists'.mp hi
    show (w.reconnect o i x).reconnectAll o i xs = _
    rw [World.reconnect_eq he hei ho]
    rw [ih hn.2]
    · congr 1
      funext m
      show Option.map (moved o i xs m) (Option.map (moved o i [x] m) (w.ents m)) = _
      cases h : w.ents m with
      | none => rfl
      | some em =>
        show some (moved o i xs m (moved o i [x] m em)) = some (moved o i (x :: xs) m em)
        congr 1
        have hcons : ∀ e, addInputs xs (addInput x e) = addInputs (x :: xs) e := fun _ => rfl
        have h1 : ∀ e, addInputs [x] e = addInput x e := fun _ => rfl
        unfold moved
        by_cases hmi : m = i
        · rw [if_pos hmi, if_pos hmi, if_pos hmi, h1, ← hcons]
          by_cases hmx : m = x
          · rw [if_pos (show m ∈ [x] by simp [hmx]), if_neg (hmx ▸ hn.1),
              if_pos (show m ∈ x :: xs by simp [hmx])]
          · rw [if_neg (show m ∉ [x] by simp [hmx])]
            by_cases hms : m ∈ xs
            · rw [if_pos hms, if_pos (List.mem_cons_of_mem _ hms), redirect_addInput]
            · rw [if_neg hms, if_neg (by simp [hmx, hms])]
        · rw [if_neg hmi, if_neg hmi, if_neg hmi]
          by_cases hmx : m = x
          · rw [if_pos (show m ∈ [x] by simp [hmx]), if_neg (hmx ▸ hn.1),
              if_pos (show m ∈ x :: xs by simp [hmx])]
          · rw [if_neg (show m ∉ [x] by simp [hmx])]
            by_cases hms : m ∈ xs
            · rw [if_pos hms, if_pos (List.mem_cons_of_mem _ hms)]
            · rw [if_neg hms, if_neg (by simp [hmx, hms])]
    · intro y hy
      obtain ⟨ey, hey, hoy⟩ := hx y (List.mem_cons_of_mem _ hy)
      refine ⟨moved o i [x] y ey, by simp [hey], ?_⟩
      have hyx : y ≠ x := fun hh => hn.1 (hh ▸ hy)
      unfold moved
      simp only [List.mem_singleton, hyx, if_false]
      split
      · rw [addInputs_targets]; exact hoy
      · exact hoy
    · simp [hei]

theorem swap_dest (h : Inv [] b p) {o i : Nat} (ho : ¬ b.world.IsOp o) (hd : p.dest o = o) (n : Nat) :
    swap o i (p.dest n) = set p.dest o i n := by
  unfold swap set
  by_cases hn : n = o
  · subst hn; rw [if_pos hd, if_pos rfl]
  · rw [if_neg hn, if_neg (fun hx => hn (h.dest_eq ho hx))]

/-- An output is connected to an input slot. -/
theorem Inv.connect (h : Inv [] b p) {o : Output} {i : Slot} (ho : o ∈ b.outs) (hi : i ∈ b.slots)
    (hsc : o.scope = i.scope) :
    Inv [] { b with world := b.world.connect o.target i.source, outs := b.outs.erase o }
      { p with dest := set p.dest o.target i.source } := by
  obtain ⟨⟨eo, heo, hbo, hino⟩, hdo, hho⟩ := h.out o ho
  obtain ⟨ei, hei, hopi, hsi⟩ := h.slot i hi
  have hnop := h.out_not_op ho
  have hne : i.source ≠ o.target := fun hx => hnop ⟨ei, hx ▸ hei, hopi⟩
  have hnamedo : ∀ {w' : World}, (∀ m, m ≠ o.target → ((w'.ents m).map (·.op) = (b.world.ents m).map (·.op) ∧
      (w'.ents m).map (·.scope) = (b.world.ents m).map (·.scope))) → w'.ents o.target = none →
      (∀ n, set p.dest o.target i.source n = n ∨ w'.IsOp (set p.dest o.target i.source n)) ∧
      (∀ n, p.Named n → ∀ e, w'.ents (set p.dest o.target i.source n) = some e → e.op = true →
        e.scope = some (p.home n)) ∧
      (∀ m, w'.IsOp m ↔ b.world.IsOp m) ∧
      (∀ m, m ≠ o.target → (w'.ents m = none ↔ b.world.ents m = none)) := by
    intro w' hw' hw0
    have op : ∀ m, w'.IsOp m ↔ b.world.IsOp m := by
      intro m
      by_cases hm : m = o.target
      · subst hm
        constructor
        · rintro ⟨e, he, -⟩; rw [hw0] at he; cases he
        · intro hx; exact absurd hx hnop
      · have := (hw' m hm).1
        exact World.isOp_map this
    refine ⟨?_, ?_, op, ?_⟩
    · intro n
      unfold set
      by_cases hn : n = o.target
      · rw [if_pos hn]; exact .inr ((op _).mpr ⟨ei, hei, hopi⟩)
      · rw [if_neg hn]
        rcases h.dest n with h1 | h1
        · exact .inl h1
        · exact .inr ((op _).mpr h1)
    · intro n hn e he hoe
      unfold set at he
      by_cases hno : n = o.target
      · rw [if_pos hno] at he
        have := (hw' i.source hne).2
        rw [he, hei] at this
        have h3 : e.scope = ei.scope := by simpa using this
        rw [h3, hsi, ← hsc, hno, hho]
      · rw [if_neg hno] at he
        have hdn : p.dest n ≠ o.target := fun hx => hno (h.dest_eq hnop hx)
        obtain ⟨e2, he2, ho2⟩ := (op _).mp ⟨e, he, hoe⟩
        have := (hw' _ hdn).2
        rw [he, he2] at this
        have h3 : e.scope = e2.scope := by simpa using this
        rw [h3]
        exact h.home n hn e2 he2 ho2
    · intro m hm
      have := (hw' m hm).1
      exact map_none this
  have lv : ∀ {w' : World} {y : Nat}, (∀ m, w'.IsOp m ↔ b.world.IsOp m) → y ≠ o.target →
      (b.world.IsOp y ∨ y ∈ b.outs.map (·.target) ∨ y ∈ ([] : List Nat)) →
      (w'.IsOp y ∨ y ∈ (b.outs.erase o).map (·.target) ∨ y ∈ ([] : List Nat)) := by
    intro w' y hop hy h1
    rcases h1 with h1 | h1 | h1
    · exact .inl ((hop y).mpr h1)
    · exact .inr (.inl ((mem_map_erase h.nodup ho).mpr ⟨h1, hy⟩))
    · cases h1
  have sub : ∀ o' ∈ b.outs.erase o, o' ∈ b.outs ∧ o'.target ≠ o.target := by
    intro o' ho'
    exact ⟨List.mem_of_mem_erase ho',
      ((mem_map_erase h.nodup ho).mp (List.mem_map_of_mem ho')).2⟩
  have hdn : ∀ {n : Nat}, n ≠ o.target → p.dest n ≠ o.target :=
    fun hno hx => hno (h.dest_eq hnop hx)
  have hto : b.world.targets o.target = [] := by rw [World.targets_some heo, hbo.targets]
  have holt : o.target < p.next := by
    rw [h.next]; exact h.alive_lt (by rw [heo]; simp)
  cases hef : eo.entryFor with
  | some sc =>
    have hent : p.entry sc = some o.target := (h.entFor o ho sc).mpr (by rw [heo]; exact hef)
    have hes : (b.world.ents sc).bind (·.entry) = some o.target := by
      rw [h.ent, hent]; simp [hdo]
    obtain ⟨es, hes1⟩ : ∃ e, b.world.ents sc = some e := by
      cases hh : b.world.ents sc with
      | none => rw [hh] at hes; cases hes
      | some e => exact ⟨e, rfl⟩
    have hso : sc ≠ o.target := by
      intro hx
      rw [hx, heo] at hes
      have : eo.entry = some o.target := hes
      rw [hbo.entry] at this; cases this
    have hw : b.world.connect o.target i.source = { b.world with
        ents := fun m => if m = o.target then none else (b.world.ents m).map fun e =>
          let e := if m = i.source then { e with entryFor := some sc } else e
          if m = sc then { e with entry := some i.source } else e } := by
      unfold World.connect
      simp only [heo, Option.bind_some, hef]
      rw [World.update_eq hei]
      by_cases his : sc = i.source
      · rw [World.update_eq (e := { ei with entryFor := some sc }) (by simp [his])]
        unfold World.despawn
        simp only [if_neg (Ne.symm hso), if_neg (Ne.symm hne), heo]
        congr 1
        funext m
        by_cases hm : m = o.target
        · simp [hm]
        · by_cases hm1 : m = i.source
          · subst hm1; simp [hm, his, hei]
          · cases hh : b.world.ents m <;> simp [hm, his, hm1]
      · rw [World.update_eq (e := es) (by simp [his, hes1])]
        unfold World.despawn
        simp only [if_neg (Ne.symm hso), if_neg (Ne.symm hne), heo]
        congr 1
        funext m
        by_cases hm : m = o.target
        · simp [hm]
        · by_cases hm1 : m = i.source
          · subst hm1; simp [hm, Ne.symm his, hei]
          · by_cases hm2 : m = sc
            · subst hm2; simp [hm, his, hes1]
            · cases hh : b.world.ents m <;> simp [hm, hm1, hm2]
    generalize b.world.connect o.target i.source = w' at hw
    have e0 : w'.ents o.target = none := by rw [hw]; simp
    have eo' : ∀ m, m ≠ o.target → w'.ents m = (b.world.ents m).map fun e =>
          let e := if m = i.source then { e with entryFor := some sc } else e
          if m = sc then { e with entry := some i.source } else e := by
      intro m hm; rw [hw]; simp [hm]
    have hnx : w'.next = b.world.next := by rw [hw]
    have her : w'.errors = b.world.errors := by rw [hw]
    clear hw
    have tr : ∀ {α : Type} (f : Ent → α), (∀ e v, f { e with entryFor := v } = f e) →
        (∀ e v, f { e with entry := v } = f e) → ∀ m, m ≠ o.target →
        (w'.ents m).map f = (b.world.ents m).map f := by
      intro α f h1 h2 m hm
      rw [eo' m hm]
      cases hh : b.world.ents m with
      | none => rfl
      | some e =>
        simp only [Option.map_some]
        congr 1
        have hin : f (if m = i.source then { e with entryFor := some sc } else e) = f e := by
          split
          · exact h1 _ _
          · rfl
        split
        · exact (h2 _ _).trans hin
        · exact hin
    obtain ⟨kd, kh, op, nn⟩ := hnamedo (w' := w') (fun m hm =>
      ⟨tr (·.op) (fun _ _ => rfl) (fun _ _ => rfl) m hm,
        tr (·.scope) (fun _ _ => rfl) (fun _ _ => rfl) m hm⟩) e0
    have tg : ∀ m, w'.targets m = b.world.targets m := by
      intro m
      by_cases hm : m = o.target
      · subst hm; rw [World.targets_none e0, hto]
      · have := tr Ent.targets (fun _ _ => rfl) (fun _ _ => rfl) m hm
        exact World.targets_map this
    have notin : ∀ x, o.target ∉ b.world.targets x := by
      intro x hx
      rw [h.tgt, List.mem_map] at hx
      obtain ⟨n, hn, hd⟩ := hx
      exact h.entNot sc o.target x hent (h.dest_eq hnop hd ▸ hn)
    have hio : b.world.inputs o.target = [] := by
      rw [List.eq_nil_iff_forall_not_mem]
      intro x hx
      exact notin x ((h.inp x o.target).mp hx)
    have inn : ∀ m, w'.inputs m = b.world.inputs m := by
      intro m
      by_cases hm : m = o.target
      · subst hm; rw [World.inputs_none e0, hio]
      · have := tr Ent.inputs (fun _ _ => rfl) (fun _ _ => rfl) m hm
        exact World.inputs_map this
    have keep : ∀ (P : Ent → Prop), (∀ e v, P e → P { e with entryFor := v }) →
        (∀ e v, P e → P { e with entry := v }) → ∀ {m : Nat} {e : Ent}, b.world.ents m = some e →
        e.op = true → P e → ∃ e', w'.ents m = some e' ∧ P e' := by
      intro P h1 h2 m e he ho1 hP
      have hm : m ≠ o.target := fun hx => hnop ⟨e, hx ▸ he, ho1⟩
      rw [eo' m hm, he]
      simp only [Option.map_some]
      refine ⟨_, rfl, ?_⟩
      split <;> split
      · exact h2 _ _ (h1 _ _ hP)
      · exact h2 _ _ hP
      · exact h1 _ _ hP
      · exact hP
    have outo : ∀ o' ∈ b.outs.erase o, w'.ents o'.target = b.world.ents o'.target := by
      intro o' ho'
      obtain ⟨hb, hn⟩ := sub o' ho'
      obtain ⟨⟨e1, he1, hb1, -⟩, -⟩ := h.out o' hb
      rw [eo' _ hn, he1]
      have h1 : o'.target ≠ i.source := fun hx => h.out_not_op hb ⟨ei, hx ▸ hei, hopi⟩
      have h2 : o'.target ≠ sc := by
        intro hx
        rw [← hx, he1] at hes
        have : e1.entry = some o.target := hes
        rw [hb1.entry] at this; cases this
      simp [h1, h2]
    have dd : ∀ n, n ≠ o.target → set p.dest o.target i.source n = p.dest n := by
      intro n hn; unfold set; rw [if_neg hn]
    constructor
    · exact h.next.trans hnx.symm
    · intro m hm
      show w'.ents m = none
      have hm' : w'.next ≤ m := hm
      rw [nn m (by have := h.next; omega)]
      exact h.fresh m (by omega)
    · exact her.trans h.clean
    · intro x
      show w'.targets x = (p.outs x).map (set p.dest o.target i.source)
      rw [tg, h.tgt]
      apply List.map_congr_left
      intro n hn
      exact (dd n (fun hx => h.entNot sc o.target x hent (hx ▸ hn))).symm
    · intro x y; show x ∈ w'.inputs y ↔ y ∈ w'.targets x; rw [tg, inn]; exact h.inp x y
    · intro y; show (w'.inputs y).Nodup; rw [inn]; exact h.nodupIn y
    · intro x y hy
      have hy' : y ∈ w'.targets x := hy
      rw [tg] at hy'
      have hyo : y ≠ o.target := fun hx => notin x (hx ▸ hy')
      obtain ⟨h1, h2⟩ := h.live x y hy'
      exact ⟨fun hx => h1 ((nn y hyo).mp hx), lv op hyo h2⟩
    · intro o' ho'
      show (∃ e, w'.ents o'.target = some e ∧ _) ∧ set p.dest o.target i.source o'.target = _ ∧ _
      rw [outo o' ho', dd _ (sub o' ho').2]
      exact h.out o' (sub o' ho').1
    · exact nodup_erase h.nodup
    · intro m hm; cases hm
    · exact kd
    · intro n hn
      have hn' : p.next ≤ n := hn
      show set p.dest o.target i.source n = n
      rw [dd n (by omega)]
      exact h.destNew n hn'
    · exact h.bound
    · intro x
      show (w'.ents x).bind (·.entry) = (p.entry x).map (set p.dest o.target i.source)
      by_cases hx : x = sc
      · subst hx
        rw [eo' x hso, hes1, hent]
        simp only [Option.map_some, Option.bind_some, if_true]
        simp [set]
      · have h1 : (p.entry x).map (set p.dest o.target i.source) = (p.entry x).map p.dest := by
          cases hh : p.entry x with
          | none => rfl
          | some n =>
            simp only [Option.map_some]
            rw [dd n]
            intro hno
            subst hno
            have := (h.entFor o ho x).mp hh
            rw [heo] at this
            have : eo.entryFor = some x := this
            rw [hef] at this
            cases this
            exact hx rfl
        rw [h1, ← h.ent x]
        by_cases hxo : x = o.target
        · subst hxo; rw [e0, heo]; exact hbo.entry.symm
        · rw [eo' x hxo]
          cases hh : b.world.ents x with
          | none => rfl
          | some e =>
            simp only [Option.map_some, Option.bind_some, hx, if_false]
            split <;> rfl
    · intro x n hn
      show w'.ents (set p.dest o.target i.source n) ≠ none ∧
        (w'.IsOp (set p.dest o.target i.source n) ∨
          set p.dest o.target i.source n ∈ (b.outs.erase o).map (·.target) ∨
          set p.dest o.target i.source n ∈ ([] : List Nat))
      by_cases hno : n = o.target
      · subst hno
        have : set p.dest o.target i.source o.target = i.source := by simp [set]
        rw [this]
        refine ⟨fun hx => ?_, .inl ((op _).mpr ⟨ei, hei, hopi⟩)⟩
        rw [nn _ hne, hei] at hx; cases hx
      · rw [dd n hno]
        obtain ⟨h1, h2⟩ := h.entLive x n hn
        exact ⟨fun hx => h1 ((nn _ (hdn hno)).mp hx), lv op (hdn hno) h2⟩
    · intro o' ho' x
      show _ ↔ (w'.ents o'.target).bind (·.entryFor) = some x
      rw [outo o' ho']
      exact h.entFor o' (sub o' ho').1 x
    · exact h.entNot
    · exact kh
    · intro x
      show ((w'.ents x).bind (·.contents)).getD [] = p.inside x
      rw [← h.inside x]
      by_cases hxo : x = o.target
      · subst hxo; rw [e0, heo]
        show [] = eo.contents.getD []
        rw [hbo.contents]; rfl
      · have := tr (·.contents) (fun _ _ => rfl) (fun _ _ => rfl) x hxo
        rw [map_bind this]
    · intro t ht
      obtain ⟨e1, he1, h1, h2⟩ := h.slot t ht
      exact keep (fun e => e.op = true ∧ e.scope = some t.scope) (fun _ _ hP => hP) (fun _ _ hP => hP)
        he1 h1 ⟨h1, h2⟩
    · intro t ht
      obtain ⟨e1, he1, h1, h2⟩ := h.forks t ht
      exact keep (fun e => e.op = true ∧ Forks e)
        (fun _ _ hP => ⟨hP.1, ⟨hP.2.single, hP.2.streams, hP.2.fork⟩⟩)
        (fun _ _ hP => ⟨hP.1, ⟨hP.2.single, hP.2.streams, hP.2.fork⟩⟩) he1 h1 ⟨h1, h2⟩
    · intro t ht
      obtain ⟨e1, he1, h1, h2⟩ := h.buffers t ht
      exact keep (fun e => e.op = true ∧ Forks e)
        (fun _ _ hP => ⟨hP.1, ⟨hP.2.single, hP.2.streams, hP.2.fork⟩⟩)
        (fun _ _ hP => ⟨hP.1, ⟨hP.2.single, hP.2.streams, hP.2.fork⟩⟩) he1 h1 ⟨h1, h2⟩
    · intro t ht
      obtain ⟨e1, he1, h1, h2⟩ := h.scopes t ht
      exact keep (fun e => e.op = true ∧ e.contents.isSome) (fun _ _ hP => hP) (fun _ _ hP => hP)
        he1 h1 ⟨h1, h2⟩
  | none =>
    obtain ⟨old, hold⟩ := Option.isSome_iff_exists.mp (hino hef)
    have hinold : b.world.inputs o.target = old := by
      rw [World.inputs_some heo, hold]; rfl
    have hon : old.Nodup := hinold ▸ h.nodupIn o.target
    have hxold : ∀ x, x ∈ old ↔ o.target ∈ b.world.targets x := by
      intro x; rw [← hinold]; exact h.inp x o.target
    have hoo : o.target ∉ old := by
      rw [hxold, hto]; simp
    have hex : ∀ x ∈ old, ∃ e, b.world.ents x = some e ∧ o.target ∈ e.targets := by
      intro x hx
      have := (hxold x).mp hx
      cases hh : b.world.ents x with
      | none => rw [World.targets_none hh] at this; cases this
      | some e => exact ⟨e, rfl, by rw [World.targets_some hh] at this; exact this⟩
    have hw : b.world.connect o.target i.source = { b.world with
        ents := fun m => if m = o.target then none
          else (b.world.ents m).map (moved o.target i.source old m) } := by
      unfold World.connect
      simp only [heo, Option.bind_some, hef, hold]
      rw [World.update_eq heo]
      rw [World.reconnectAll_eq old hon]
      · unfold World.despawn
        simp only [if_true, Option.map_some]
        congr 1
        funext m
        by_cases hm : m = o.target
        · simp [hm]
        · simp [hm]
      · intro x hx
        obtain ⟨e, he, h1⟩ := hex x hx
        exact ⟨e, by simp [show x ≠ o.target from fun hh => hoo (hh ▸ hx), he], h1⟩
      · simp [hne, hei]
    generalize b.world.connect o.target i.source = w' at hw
    have e0 : w'.ents o.target = none := by rw [hw]; simp
    have eo' : ∀ m, m ≠ o.target →
        w'.ents m = (b.world.ents m).map (moved o.target i.source old m) := by
      intro m hm; rw [hw]; simp [hm]
    have hnx : w'.next = b.world.next := by rw [hw]
    have her : w'.errors = b.world.errors := by rw [hw]
    clear hw
    have mf := moved_fields o.target i.source old
    have mfork : ∀ m e, Forks e → Forks (moved o.target i.source old m e) :=
      fun m e hf => moved_forks hf
    have tr : ∀ {α : Type} (f : Ent → α),
        (∀ m e, f (moved o.target i.source old m e) = f e) → ∀ m, m ≠ o.target →
        (w'.ents m).map f = (b.world.ents m).map f := by
      intro α f h1 m hm
      rw [eo' m hm]
      cases hh : b.world.ents m with
      | none => rfl
      | some e => simp only [Option.map_some, h1]
    obtain ⟨kd, kh, op, nn⟩ := hnamedo (w' := w') (fun m hm =>
      ⟨tr (·.op) (fun m e => (mf m e).1) m hm,
        tr (·.scope) (fun m e => (mf m e).2.1) m hm⟩) e0
    have mt : ∀ m e, b.world.ents m = some e →
        (moved o.target i.source old m e).targets = e.targets.map (swap o.target i.source) := by
      intro m e he
      have hswap : m ∉ old → e.targets = e.targets.map (swap o.target i.source) := by
        intro hm
        rw [hxold, World.targets_some he] at hm
        rw [List.map_congr_left (g := id), List.map_id]
        intro t ht
        unfold swap
        have hto' : t ≠ o.target := by rintro rfl; exact hm ht
        rw [if_neg hto']; rfl
      rw [moved_targets]
      split
      · rfl
      · rename_i h1
        exact hswap h1
    have tg : ∀ m, w'.targets m = (b.world.targets m).map (swap o.target i.source) := by
      intro m
      by_cases hm : m = o.target
      · subst hm; rw [World.targets_none e0, hto]; rfl
      · cases hh : b.world.ents m with
        | none =>
          rw [World.targets_none hh, World.targets_none ((nn m hm).mpr hh)]; rfl
        | some e =>
          rw [World.targets_some hh, World.targets_some (w := w')
            (e := moved o.target i.source old m e) (by rw [eo' m hm, hh]; rfl), mt m e hh]
    have mtg : ∀ x y, y ∈ w'.targets x ↔
        (y ≠ o.target ∧ y ∈ b.world.targets x) ∨ (y = i.source ∧ x ∈ old) := by
      intro x y
      rw [tg, List.mem_map, hxold]
      constructor
      · rintro ⟨t, ht, hs⟩
        unfold swap at hs
        by_cases hto' : t = o.target
        · rw [if_pos hto'] at hs
          exact .inr ⟨hs.symm, hto' ▸ ht⟩
        · rw [if_neg hto'] at hs
          subst hs
          exact .inl ⟨hto', ht⟩
      · rintro (⟨h1, h2⟩ | ⟨h1, h2⟩)
        · exact ⟨y, h2, by unfold swap; rw [if_neg h1]⟩
        · exact ⟨o.target, h2, by unfold swap; rw [if_pos rfl, h1]⟩
    have inr : ∀ e1, (redirect o.target i.source e1).inputs = e1.inputs := fun _ => rfl
    have ino : ∀ m, m ≠ o.target → m ≠ i.source → w'.inputs m = b.world.inputs m := by
      intro m hm hmi
      cases hh : b.world.ents m with
      | none => rw [World.inputs_none hh, World.inputs_none ((nn m hm).mpr hh)]
      | some e =>
        rw [World.inputs_some hh, World.inputs_some (w := w')
            (e := moved o.target i.source old m e) (by rw [eo' m hm, hh]; rfl)]
        unfold moved
        simp only [hmi, if_false]
        split <;> rfl
    have ini : w'.ents i.source = some (moved o.target i.source old i.source ei) := by
      rw [eo' _ hne, hei]; rfl
    have hmi : moved o.target i.source old i.source ei = addInputs old
        (if i.source ∈ old then redirect o.target i.source ei else ei) := by
      unfold moved; simp
    have hri : (if i.source ∈ old then redirect o.target i.source ei else ei).inputs = ei.inputs := by
      split <;> rfl
    have outo : ∀ o' ∈ b.outs.erase o, w'.ents o'.target = b.world.ents o'.target := by
      intro o' ho'
      obtain ⟨hb, hn⟩ := sub o' ho'
      obtain ⟨⟨e1, he1, hb1, -⟩, -⟩ := h.out o' hb
      rw [eo' _ hn, he1]
      have h1 : o'.target ≠ i.source := fun hx => h.out_not_op hb ⟨ei, hx ▸ hei, hopi⟩
      have h2 : o'.target ∉ old := by
        rw [hxold, World.targets_some he1, hb1.targets]; simp
      simp [moved, h1, h2]
    have dd : ∀ n, n ≠ o.target → set p.dest o.target i.source n = p.dest n := by
      intro n hn; unfold set; rw [if_neg hn]
    have hnent : ∀ x, p.entry x ≠ some o.target := by
      intro x hx
      have := (h.entFor o ho x).mp hx
      rw [heo] at this
      have : eo.entryFor = some x := this
      rw [hef] at this; cases this
    have keep : ∀ (P : Ent → Prop), (∀ m e, P e → P (moved o.target i.source old m e)) →
        ∀ {m : Nat} {e : Ent}, b.world.ents m = some e →
        e.op = true → P e → ∃ e', w'.ents m = some e' ∧ P e' := by
      intro P h1 m e he ho1 hP
      have hm : m ≠ o.target := fun hx => hnop ⟨e, hx ▸ he, ho1⟩
      rw [eo' m hm, he]
      exact ⟨_, rfl, h1 m e hP⟩
    constructor
    · exact h.next.trans hnx.symm
    · intro m hm
      show w'.ents m = none
      have hm' : w'.next ≤ m := hm
      rw [nn m (by have := h.next; omega)]
      exact h.fresh m (by omega)
    · exact her.trans h.clean
    · intro x
      show w'.targets x = (p.outs x).map (set p.dest o.target i.source)
      rw [tg, h.tgt, List.map_map]
      apply List.map_congr_left
      intro n _
      exact swap_dest h hnop hdo n
    · intro x y
      show x ∈ w'.inputs y ↔ y ∈ w'.targets x
      rw [mtg]
      by_cases hy : y = o.target
      · subst hy
        rw [World.inputs_none e0]
        simp [Ne.symm hne]
      · by_cases hyi : y = i.source
        · subst hyi
          rw [World.inputs_some ini, hmi, addInputs_mem, hri, ← World.inputs_some hei, h.inp]
          simp [hne]
        · rw [ino y hy hyi, h.inp]
          simp [hy, hyi]
    · intro y
      show (w'.inputs y).Nodup
      by_cases hy : y = o.target
      · subst hy; rw [World.inputs_none e0]; simp
      · by_cases hyi : y = i.source
        · subst hyi
          rw [World.inputs_some ini, hmi]
          apply addInputs_nodup
          rw [hri, ← World.inputs_some hei]
          exact h.nodupIn _
        · rw [ino y hy hyi]; exact h.nodupIn y
    · intro x y hy
      have hy' : y ∈ w'.targets x := hy
      rcases (mtg x y).mp hy' with ⟨hyo, h1⟩ | ⟨rfl, -⟩
      · obtain ⟨h1, h2⟩ := h.live x y h1
        exact ⟨fun hx => h1 ((nn y hyo).mp hx), lv op hyo h2⟩
      · refine ⟨?_, .inl ((op _).mpr ⟨ei, hei, hopi⟩)⟩
        show w'.ents i.source ≠ none
        rw [ini]; simp
    · intro o' ho'
      show (∃ e, w'.ents o'.target = some e ∧ _) ∧ set p.dest o.target i.source o'.target = _ ∧ _
      rw [outo o' ho', dd _ (sub o' ho').2]
      exact h.out o' (sub o' ho').1
    · exact nodup_erase h.nodup
    · intro m hm; cases hm
    · exact kd
    · intro n hn
      have hn' : p.next ≤ n := hn
      show set p.dest o.target i.source n = n
      rw [dd n (by omega)]
      exact h.destNew n hn'
    · exact h.bound
    · intro x
      show (w'.ents x).bind (·.entry) = (p.entry x).map (set p.dest o.target i.source)
      have h1 : (p.entry x).map (set p.dest o.target i.source) = (p.entry x).map p.dest := by
        cases hh : p.entry x with
        | none => rfl
        | some n =>
          simp only [Option.map_some]
          rw [dd n (fun hx => hnent x (hx ▸ hh))]
      rw [h1, ← h.ent x]
      by_cases hxo : x = o.target
      · subst hxo; rw [e0, heo]; exact hbo.entry.symm
      · have := tr (·.entry) (fun m e => (mf m e).2.2.1) x hxo
        exact map_bind this
    · intro x n hn
      show w'.ents (set p.dest o.target i.source n) ≠ none ∧
        (w'.IsOp (set p.dest o.target i.source n) ∨
          set p.dest o.target i.source n ∈ (b.outs.erase o).map (·.target) ∨
          set p.dest o.target i.source n ∈ ([] : List Nat))
      have hno : n ≠ o.target := fun hx => hnent x (hx ▸ hn)
      rw [dd n hno]
      obtain ⟨h1, h2⟩ := h.entLive x n hn
      exact ⟨fun hx => h1 ((nn _ (hdn hno)).mp hx), lv op (hdn hno) h2⟩
    · intro o' ho' x
      show _ ↔ (w'.ents o'.target).bind (·.entryFor) = some x
      rw [outo o' ho']
      exact h.entFor o' (sub o' ho').1 x
    · exact h.entNot
    · exact kh
    · intro x
      show ((w'.ents x).bind (·.contents)).getD [] = p.inside x
      rw [← h.inside x]
      by_cases hxo : x = o.target
      · subst hxo; rw [e0, heo]
        show [] = eo.contents.getD []
        rw [hbo.contents]; rfl
      · have := tr (·.contents) (fun m e => (mf m e).2.2.2.2) x hxo
        rw [map_bind this]
    · intro t ht
      obtain ⟨e1, he1, h1, h2⟩ := h.slot t ht
      exact keep (fun e => e.op = true ∧ e.scope = some t.scope)
        (fun m e hP => ⟨(mf m e).1.trans hP.1, (mf m e).2.1.trans hP.2⟩) he1 h1 ⟨h1, h2⟩
    · intro t ht
      obtain ⟨e1, he1, h1, h2⟩ := h.forks t ht
      exact keep (fun e => e.op = true ∧ Forks e)
        (fun m e hP => ⟨(mf m e).1.trans hP.1, mfork m e hP.2⟩) he1 h1 ⟨h1, h2⟩
    · intro t ht
      obtain ⟨e1, he1, h1, h2⟩ := h.buffers t ht
      exact keep (fun e => e.op = true ∧ Forks e)
        (fun m e hP => ⟨(mf m e).1.trans hP.1, mfork m e hP.2⟩) he1 h1 ⟨h1, h2⟩
    · intro t ht
      obtain ⟨e1, he1, h1, h2⟩ := h.scopes t ht
      exact keep (fun e => e.op = true ∧ e.contents.isSome)
        (fun m e hP => ⟨(mf m e).1.trans hP.1, by rw [(mf m e).2.2.2.2]; exact hP.2⟩) he1 h1 ⟨h1, h2⟩

end Verif.Wire
