import Verif.Wire.Lemmas

/-!
# More steps that keep the invariant of the builder
-/

namespace Verif.Wire

variable {pend : List Nat} {b : Build} {p : Plan}

/-! ## Completing an operation -/

theorem World.addOperation_eq {w : World} {s sc : Nat} {e ec : Ent} {c : List Nat}
    (he : w.ents s = some e) (hc : w.ents sc = some ec) (hcc : ec.contents = some c)
    (hne : sc ≠ s) :
    w.addOperation (some sc) s = { w with
      ents := fun m =>
        if m = sc then some { ec with contents := some (c ++ [s]) }
        else if m = s then some { e with op := true, scope := some sc } else w.ents m } := by
  unfold World.addOperation
  simp only [World.update_eq he]
  rw [World.update_eq (e := { e with op := true }) (by simp)]
  simp only [if_neg hne, hc, Option.bind_some, hcc]
  rw [World.update_eq (e := ec) (by simp [hne, hc])]
  congr 1
  funext m
  by_cases h1 : m = sc
  · simp [h1]
  · by_cases h2 : m = s
    · simp [h2, Ne.symm hne]
    · simp [h1, h2]

theorem Inv.addOp {s : Nat} (h : Inv [s] b p) {sc : Nat} (hsc : sc ∈ b.scopes)
    (hh : p.Named s → p.home s = sc) :
    Inv [] { b with world := b.world.addOperation (some sc) s } (p.place s sc) ∧
    (∃ e, b.world.ents s = some e ∧ (b.world.addOperation (some sc) s).ents s =
      some { e with op := true, scope := some sc }) := by
  obtain ⟨hal, hnop, hnout, hds⟩ := h.pendOk s (by simp)
  obtain ⟨e, he⟩ := Option.ne_none_iff_exists'.mp hal
  obtain ⟨ec, hec, hop, hcs⟩ := h.scopes sc hsc
  obtain ⟨c, hcc⟩ := Option.isSome_iff_exists.mp hcs
  have hne : sc ≠ s := by
    intro hh'
    apply hnop
    exact ⟨ec, hh' ▸ hec, hop⟩
  have hopf : e.op = false := by
    cases h1 : e.op
    · rfl
    · exact absurd ⟨e, he, h1⟩ hnop
  have hw := World.addOperation_eq he hec hcc hne
  generalize b.world.addOperation (some sc) s = w' at hw
  have esc : w'.ents sc = some { ec with contents := some (c ++ [s]) } := by rw [hw]; simp
  have es : w'.ents s = some { e with op := true, scope := some sc } := by
    rw [hw]; simp [Ne.symm hne]
  have eo : ∀ m, m ≠ sc → m ≠ s → w'.ents m = b.world.ents m := by
    intro m h1 h2; rw [hw]; simp [h1, h2]
  have hnx : w'.next = b.world.next := by rw [hw]
  have her : w'.errors = b.world.errors := by rw [hw]
  clear hw
  refine ⟨?_, e, he, es⟩
  -- a property of an entity that ignores the changed components
  have tr : ∀ {α : Type} (f : Ent → α), f { ec with contents := some (c ++ [s]) } = f ec →
      f { e with op := true, scope := some sc } = f e → ∀ m, (w'.ents m).map f = (b.world.ents m).map f := by
    intro α f h1 h2 m
    by_cases hm : m = sc
    · subst hm; rw [esc, hec]; simp [h1]
    · by_cases hm' : m = s
      · subst hm'; rw [es, he]; simp [h2]
      · rw [eo m hm hm']
  have tg : ∀ m, w'.targets m = b.world.targets m := by
    intro m
    have := tr Ent.targets rfl rfl m
    exact World.targets_map this
  have inn : ∀ m, w'.inputs m = b.world.inputs m := by
    intro m
    have := tr Ent.inputs rfl rfl m
    exact World.inputs_map this
  have nn : ∀ m, w'.ents m = none ↔ b.world.ents m = none := by
    intro m
    have := tr Ent.inputs rfl rfl m
    exact map_none this
  have op : ∀ m, w'.IsOp m ↔ b.world.IsOp m ∨ m = s := by
    intro m
    by_cases hm : m = sc
    · subst hm
      rw [World.isOp_some esc, World.isOp_some hec]; simp [hne]
    · by_cases hm' : m = s
      · subst hm'; rw [World.isOp_some es]; simp
      · rw [World.isOp_congr (eo m hm hm')]; simp [hm']
  have lv : ∀ {y : Nat}, (b.world.IsOp y ∨ y ∈ b.outs.map (·.target) ∨ y ∈ [s]) →
      (w'.IsOp y ∨ y ∈ b.outs.map (·.target) ∨ y ∈ ([] : List Nat)) := by
    intro y hy
    rcases hy with hy | hy | hy
    · exact .inl ((op y).mpr (.inl hy))
    · exact .inr (.inl hy)
    · exact .inl ((op y).mpr (.inr (by simpa using hy)))
  have outo : ∀ o ∈ b.outs, w'.ents o.target = b.world.ents o.target := by
    intro o ho
    refine eo _ ?_ ?_
    · intro hx; exact h.out_not_op ho ⟨ec, hx ▸ hec, hop⟩
    · intro hx; exact hnout (hx ▸ List.mem_map_of_mem ho)
  constructor
  · exact h.next.trans hnx.symm
  · intro m hm
    exact (nn m).mpr (h.fresh m (by have : w'.next ≤ m := hm; omega))
  · exact her.trans h.clean
  · intro x; show w'.targets x = _; rw [tg]; exact h.tgt x
  · intro x y; show x ∈ w'.inputs y ↔ y ∈ w'.targets x; rw [tg, inn]; exact h.inp x y
  · intro y; show (w'.inputs y).Nodup; rw [inn]; exact h.nodupIn y
  · intro x y hy
    have hy' : y ∈ w'.targets x := hy
    rw [tg] at hy'
    obtain ⟨h1, h2⟩ := h.live x y hy'
    exact ⟨fun hx => h1 ((nn y).mp hx), lv h2⟩
  · intro o ho
    show (∃ e, w'.ents o.target = some e ∧ _) ∧ _
    rw [outo o ho]
    exact h.out o ho
  · exact h.nodup
  · intro m hm; cases hm
  · intro n
    rcases h.dest n with h1 | h1
    · exact .inl h1
    · exact .inr ((op _).mpr (.inl h1))
  · exact h.destNew
  · exact h.bound
  · intro x
    show (w'.ents x).bind (·.entry) = (p.entry x).map p.dest
    rw [← h.ent x]
    have := tr Ent.entry rfl rfl x
    exact map_bind this
  · intro x n hn
    obtain ⟨h1, h2⟩ := h.entLive x n hn
    exact ⟨fun hx => h1 ((nn _).mp hx), lv h2⟩
  · intro o ho x
    show _ ↔ (w'.ents o.target).bind (·.entryFor) = some x
    rw [outo o ho]
    exact h.entFor o ho x
  · exact h.entNot
  · intro n hn e1 he1 ho1
    have he1' : w'.ents (p.dest n) = some e1 := he1
    show e1.scope = some (p.home n)
    by_cases hm : p.dest n = sc
    · rw [hm] at he1'
      rw [esc] at he1'
      cases he1'
      exact h.home n hn ec (hm ▸ hec) hop
    · by_cases hm' : p.dest n = s
      · have hns := h.dest_eq hnop hm'
        rw [hm', es] at he1'
        cases he1'
        show some sc = some (p.home n)
        rw [hns] at hn
        rw [hns, hh hn]
      · rw [eo _ hm hm'] at he1'
        exact h.home n hn e1 he1' ho1
  · intro x
    show ((w'.ents x).bind (·.contents)).getD [] = set p.inside sc (p.inside sc ++ [s]) x
    unfold set
    by_cases hm : x = sc
    · subst hm
      have := h.inside x
      rw [hec] at this
      have : c = p.inside x := by simpa [hcc] using this
      rw [if_pos rfl, esc, ← this]; rfl
    · rw [if_neg hm, ← h.inside x]
      by_cases hm' : x = s
      · subst hm'; rw [es, he]; rfl
      · rw [eo x hm hm']
  · intro t ht
    obtain ⟨e1, he1, h1, h2⟩ := h.slot t ht
    show ∃ e, w'.ents t.source = some e ∧ _
    by_cases hm : t.source = sc
    · rw [hm] at he1 ⊢
      rw [hec] at he1; cases he1
      exact ⟨_, esc, h1, h2⟩
    · rw [eo _ hm (fun hx => hnop ⟨e1, hx ▸ he1, h1⟩)]
      exact ⟨e1, he1, h1, h2⟩
  · intro t ht
    obtain ⟨e1, he1, h1, h2⟩ := h.forks t ht
    show ∃ e, w'.ents t.source = some e ∧ _
    by_cases hm : t.source = sc
    · rw [hm] at he1 ⊢
      rw [hec] at he1; cases he1
      exact ⟨_, esc, h1, ⟨h2.single, h2.streams, h2.fork⟩⟩
    · rw [eo _ hm (fun hx => hnop ⟨e1, hx ▸ he1, h1⟩)]
      exact ⟨e1, he1, h1, h2⟩
  · intro t ht
    obtain ⟨e1, he1, h1, h2⟩ := h.buffers t ht
    show ∃ e, w'.ents t.source = some e ∧ _
    by_cases hm : t.source = sc
    · rw [hm] at he1 ⊢
      rw [hec] at he1; cases he1
      exact ⟨_, esc, h1, ⟨h2.single, h2.streams, h2.fork⟩⟩
    · rw [eo _ hm (fun hx => hnop ⟨e1, hx ▸ he1, h1⟩)]
      exact ⟨e1, he1, h1, h2⟩
  · intro t ht
    obtain ⟨e1, he1, h1, h2⟩ := h.scopes t ht
    show ∃ e, w'.ents t = some e ∧ _
    by_cases hm : t = sc
    · rw [hm] at he1 ⊢
      rw [hec] at he1; cases he1
      exact ⟨_, esc, h1, rfl⟩
    · rw [eo _ hm (fun hx => hnop ⟨e1, hx ▸ he1, h1⟩)]
      exact ⟨e1, he1, h1, h2⟩

/-! ## Opening a scope -/

/-- The entry of scope `s` is spawned and `s` is made to hold operations. -/
theorem Inv.opens {s : Nat} (h : Inv [s] b p) {e : Ent} (he : b.world.ents s = some e)
    (hen : e.entry = none) (hco : e.contents = none) {w' : World}
    (hw : w' = { b.world with
      ents := fun m =>
        if m = b.world.next then some { entryFor := some s, unused := true }
        else if m = s then some { e with entry := some b.world.next, contents := some [] }
        else b.world.ents m
      next := b.world.next + 1 }) :
    Inv [s] { b with world := w', outs := b.outs ++ [⟨b.world.next, s⟩] } (p.opens s) := by
  obtain ⟨hal, hnop, hnout, hds⟩ := h.pendOk s (by simp)
  have hlt : s < b.world.next := h.alive_lt hal
  have hnone : b.world.ents b.world.next = none := h.fresh _ (Nat.le_refl _)
  have en : w'.ents b.world.next = some { entryFor := some s, unused := true } := by
    rw [hw]; simp
  have es : w'.ents s = some { e with entry := some b.world.next, contents := some [] } := by
    rw [hw]
    simp only
    rw [if_neg (by omega)]
    simp
  have eo : ∀ m, m ≠ b.world.next → m ≠ s → w'.ents m = b.world.ents m := by
    intro m h1 h2; rw [hw]; simp [h1, h2]
  have hnx : w'.next = b.world.next + 1 := by rw [hw]
  have her : w'.errors = b.world.errors := by rw [hw]
  clear hw
  have hps : p.entry s = none := by
    have := h.ent s
    rw [he] at this
    have : (p.entry s).map p.dest = none := by rw [← this]; exact hen
    simpa using this
  have hn := h.next
  have aln : ∀ m, b.world.ents m ≠ none → m ≠ b.world.next := by
    intro m hm hx; exact hm (hx ▸ hnone)
  have tg : ∀ m, w'.targets m = b.world.targets m := by
    intro m
    by_cases hm : m = b.world.next
    · subst hm; rw [World.targets_some en, World.targets_none hnone]; rfl
    · by_cases hm' : m = s
      · subst hm'; rw [World.targets_some es, World.targets_some he]; rfl
      · exact World.targets_congr (eo m hm hm')
  have inn : ∀ m, w'.inputs m = b.world.inputs m := by
    intro m
    by_cases hm : m = b.world.next
    · subst hm; rw [World.inputs_some en, World.inputs_none hnone]; rfl
    · by_cases hm' : m = s
      · subst hm'; rw [World.inputs_some es, World.inputs_some he]
      · exact World.inputs_congr (eo m hm hm')
  have op : ∀ m, w'.IsOp m ↔ b.world.IsOp m := by
    intro m
    by_cases hm : m = b.world.next
    · subst hm
      rw [World.isOp_some en]
      simp [World.IsOp, hnone]
    · by_cases hm' : m = s
      · subst hm'; rw [World.isOp_some es, World.isOp_some he]
      · exact World.isOp_congr (eo m hm hm')
  have alive : ∀ m, b.world.ents m ≠ none → w'.ents m ≠ none := by
    intro m hm
    by_cases hm' : m = s
    · subst hm'; rw [es]; simp
    · rw [eo m (aln m hm) hm']; exact hm
  have outo : ∀ o ∈ b.outs, w'.ents o.target = b.world.ents o.target := by
    intro o ho
    obtain ⟨⟨e1, he1, -⟩, -⟩ := h.out o ho
    refine eo _ (aln _ (by rw [he1]; simp)) ?_
    intro hx; exact hnout (hx ▸ List.mem_map_of_mem ho)
  have hmap : (b.outs ++ [(⟨b.world.next, s⟩ : Output)]).map (·.target) =
      b.outs.map (·.target) ++ [b.world.next] := by simp
  have hdn : p.dest b.world.next = b.world.next := h.destNew _ (by omega)
  have hent : ∀ x n, (p.opens s).entry x = some n ↔
      (x = s ∧ n = b.world.next) ∨ p.entry x = some n := by
    intro x n
    simp only [Plan.opens, set, hn]
    by_cases hx : x = s
    · subst hx; rw [if_pos rfl, hps]; simp [eq_comm]
    · rw [if_neg hx]; simp [hx]
  have named : ∀ n, (p.opens s).Named n ↔ p.Named n ∨ n = b.world.next := by
    intro n
    unfold Plan.Named
    simp only [hent]
    constructor
    · rintro (h1 | ⟨x, ⟨-, h1⟩ | h1⟩)
      · exact .inl (.inl h1)
      · exact .inr h1
      · exact .inl (.inr ⟨x, h1⟩)
    · rintro ((h1 | ⟨x, h1⟩) | h1)
      · exact .inl h1
      · exact .inr ⟨x, .inr h1⟩
      · exact .inr ⟨s, .inl ⟨rfl, h1⟩⟩
  have hbd : ∀ n, p.Named n → n < b.world.next := fun n h1 => hn ▸ h.bound n h1
  have hhome : ∀ n, (p.opens s).home n = if n = b.world.next then s else p.home n := by
    intro n; simp only [Plan.opens, set, hn]
  have keep : ∀ {m : Nat} {e1 : Ent}, b.world.ents m = some e1 → e1.op = true →
      w'.ents m = some e1 := by
    intro m e1 he1 ho1
    rw [eo m (aln m (by rw [he1]; simp)) (fun hx => hnop ⟨e1, hx ▸ he1, ho1⟩), he1]
  constructor
  · show p.next + 1 = w'.next; omega
  · intro m hm
    have hm' : w'.next ≤ m := hm
    show w'.ents m = none
    rw [eo m (by omega) (by omega)]
    exact h.fresh m (by omega)
  · exact her.trans h.clean
  · intro x; show w'.targets x = _; rw [tg]; exact h.tgt x
  · intro x y; show x ∈ w'.inputs y ↔ y ∈ w'.targets x; rw [tg, inn]; exact h.inp x y
  · intro y; show (w'.inputs y).Nodup; rw [inn]; exact h.nodupIn y
  · intro x y hy
    have hy' : y ∈ w'.targets x := hy
    rw [tg] at hy'
    obtain ⟨h1, h2⟩ := h.live x y hy'
    refine ⟨alive y h1, ?_⟩
    show w'.IsOp y ∨ y ∈ (b.outs ++ [(⟨b.world.next, s⟩ : Output)]).map (·.target) ∨ _
    rw [hmap, op, List.mem_append]
    rcases h2 with h2 | h2 | h2
    · exact .inl h2
    · exact .inr (.inl (.inl h2))
    · exact .inr (.inr h2)
  · intro o ho
    show (∃ e, w'.ents o.target = some e ∧ _) ∧ p.dest o.target = _ ∧ _
    rw [hhome]
    rcases List.mem_append.mp ho with ho | ho
    · rw [outo o ho]
      obtain ⟨h1, h2, h3⟩ := h.out o ho
      obtain ⟨e1, he1, -⟩ := h1
      rw [if_neg (aln _ (by rw [he1]; simp))]
      exact h.out o ho
    · simp only [List.mem_singleton] at ho
      subst ho
      refine ⟨⟨_, en, ⟨rfl, rfl, rfl, rfl, rfl, rfl⟩, fun hx => ?_⟩, hdn, by simp⟩
      cases hx
  · show ((b.outs ++ [(⟨b.world.next, s⟩ : Output)]).map (·.target)).Nodup
    rw [hmap, List.nodup_append]
    refine ⟨h.nodup, by simp, ?_⟩
    intro a ha c hc hac
    simp only [List.mem_singleton] at hc
    obtain ⟨o, ho, rfl⟩ := List.mem_map.mp ha
    obtain ⟨⟨e1, he1, -⟩, -⟩ := h.out o ho
    exact aln _ (by rw [he1]; simp) (hac.trans hc)
  · intro m hm
    simp only [List.mem_singleton] at hm
    subst hm
    refine ⟨alive m hal, fun hx => hnop ((op m).mp hx), ?_, hds⟩
    show m ∉ (b.outs ++ [(⟨b.world.next, m⟩ : Output)]).map (·.target)
    rw [hmap, List.mem_append]
    rintro (hx | hx)
    · exact hnout hx
    · simp only [List.mem_singleton] at hx; omega
  · intro n
    rcases h.dest n with h1 | h1
    · exact .inl h1
    · exact .inr ((op _).mpr h1)
  · intro n hn'
    have : p.next + 1 ≤ n := hn'
    exact h.destNew n (by omega)
  · intro n hn'
    show n < p.next + 1
    rcases (named n).mp hn' with h1 | h1
    · have := h.bound n h1; omega
    · omega
  · intro x
    show (w'.ents x).bind (·.entry) = ((p.opens s).entry x).map p.dest
    by_cases hx : x = s
    · subst hx
      rw [es, (hent x b.world.next).mpr (.inl ⟨rfl, rfl⟩)]
      simp [hdn]
    · have : (p.opens s).entry x = p.entry x := by simp [Plan.opens, set, hx]
      rw [this, ← h.ent x]
      by_cases hm : x = b.world.next
      · subst hm; rw [en, hnone]; rfl
      · rw [eo x hm hx]
  · intro x n hx
    show w'.ents (p.dest n) ≠ none ∧
      (w'.IsOp (p.dest n) ∨ p.dest n ∈ (b.outs ++ [(⟨b.world.next, s⟩ : Output)]).map (·.target) ∨ _)
    rw [hmap, op, List.mem_append]
    rcases (hent x n).mp hx with ⟨-, rfl⟩ | hx
    · rw [hdn, en]
      exact ⟨by simp, .inr (.inl (.inr (by simp)))⟩
    · obtain ⟨h1, h2⟩ := h.entLive x n hx
      refine ⟨alive _ h1, ?_⟩
      rcases h2 with h2 | h2 | h2
      · exact .inl h2
      · exact .inr (.inl (.inl h2))
      · exact .inr (.inr h2)
  · intro o ho x
    rw [hent]
    show _ ↔ (w'.ents o.target).bind (·.entryFor) = some x
    rcases List.mem_append.mp ho with ho | ho
    · rw [outo o ho, ← h.entFor o ho x]
      obtain ⟨⟨e1, he1, -⟩, -⟩ := h.out o ho
      have := aln _ (show b.world.ents o.target ≠ none by rw [he1]; simp)
      simp [this]
    · simp only [List.mem_singleton] at ho
      subst ho
      rw [en]
      constructor
      · rintro (⟨rfl, -⟩ | hx)
        · rfl
        · exact absurd (hbd _ (.inr ⟨x, hx⟩)) (Nat.lt_irrefl _)
      · intro hx
        have : some s = some x := hx
        cases this
        exact .inl ⟨rfl, rfl⟩
  · intro x n y hx hy
    have hy' : n ∈ p.outs y := hy
    rcases (hent x n).mp hx with ⟨-, rfl⟩ | hx
    · have := hbd _ (.inl ⟨y, hy'⟩); omega
    · exact h.entNot x n y hx hy'
  · intro n hn' e1 he1 ho1
    have he1' : w'.ents (p.dest n) = some e1 := he1
    rw [hhome]
    obtain ⟨e2, he2, ho2⟩ := (op _).mp ⟨e1, he1', ho1⟩
    rw [keep he2 ho2] at he1'
    cases he1'
    rcases (named n).mp hn' with h1 | h1
    · rw [if_neg (by have := hbd n h1; omega)]
      exact h.home n h1 e1 he2 ho2
    · subst h1
      rw [hdn, hnone] at he2; cases he2
  · intro x
    show ((w'.ents x).bind (·.contents)).getD [] = p.inside x
    rw [← h.inside x]
    by_cases hm : x = b.world.next
    · subst hm; rw [en, hnone]; rfl
    · by_cases hm' : x = s
      · subst hm'; rw [es, he]; simp [hco]
      · rw [eo x hm hm']
  · intro t ht
    obtain ⟨e1, he1, h1, h2⟩ := h.slot t ht
    exact ⟨e1, keep he1 h1, h1, h2⟩
  · intro t ht
    obtain ⟨e1, he1, h1, h2⟩ := h.forks t ht
    exact ⟨e1, keep he1 h1, h1, h2⟩
  · intro t ht
    obtain ⟨e1, he1, h1, h2⟩ := h.buffers t ht
    exact ⟨e1, keep he1 h1, h1, h2⟩
  · intro t ht
    obtain ⟨e1, he1, h1, h2⟩ := h.scopes t ht
    exact ⟨e1, keep he1 h1, h1, h2⟩

/-! ## Listening to a buffer -/

theorem addInput_targets (x : Nat) (e : Ent) : (addInput x e).targets = e.targets := by
  unfold addInput
  split <;> rfl

theorem addInput_op (x : Nat) (e : Ent) : (addInput x e).op = e.op := by
  unfold addInput
  split <;> rfl

theorem addInput_fields (x : Nat) (e : Ent) :
    (addInput x e).entry = e.entry ∧ (addInput x e).entryFor = e.entryFor ∧
    (addInput x e).contents = e.contents ∧ (addInput x e).scope = e.scope ∧
    (addInput x e).single = e.single ∧ (addInput x e).fork = e.fork ∧
    (addInput x e).streams = e.streams := by
  unfold addInput
  split <;> exact ⟨rfl, rfl, rfl, rfl, rfl, rfl, rfl⟩

theorem addInput_inputs (x : Nat) (e : Ent) :
    (addInput x e).inputs.getD [] =
      if x ∈ e.inputs.getD [] then e.inputs.getD [] else e.inputs.getD [] ++ [x] := by
  unfold addInput
  cases h : e.inputs with
  | none => simp
  | some l => simp

theorem Forks.targets {e : Ent} (h : Forks e) : e.targets = e.fork.getD [] := by
  simp [Ent.targets, h.single, h.streams]

theorem Inv.listen {l : Nat} (h : Inv [l] b p) {s : Slot} (hs : s ∈ b.buffers)
    (hl : ∀ x, p.entry x ≠ some l) :
    Inv [l] { b with world := b.world.listen s.source l }
      { p with
        outs := set p.outs s.source
          (if l ∈ p.outs s.source then p.outs s.source else p.outs s.source ++ [l]) } := by
  obtain ⟨hal, hnop, hnout, hdl⟩ := h.pendOk l (by simp)
  obtain ⟨el, hel⟩ := Option.ne_none_iff_exists'.mp hal
  obtain ⟨es, hes, hop, hfk⟩ := h.buffers s hs
  obtain ⟨ts, hts⟩ := Option.isSome_iff_exists.mp hfk.fork
  have hne : s.source ≠ l := fun hx => hnop ⟨es, hx ▸ hes, hop⟩
  have hllt : l < b.world.next := h.alive_lt hal
  have hw : b.world.listen s.source l = { b.world with
      ents := fun m =>
        if m = l then some (addInput s.source el)
        else if m = s.source then some { es with fork := some (if l ∈ ts then ts else ts ++ [l]) }
        else b.world.ents m } := by
    unfold World.listen
    simp only [hes, Option.bind_some, hts]
    rw [World.update_eq hes]
    rw [World.update_eq (e := el) (by simp [Ne.symm hne, hel])]
  generalize b.world.listen s.source l = w' at hw
  have eL : w'.ents l = some (addInput s.source el) := by rw [hw]; simp
  have eS : w'.ents s.source =
      some { es with fork := some (if l ∈ ts then ts else ts ++ [l]) } := by
    rw [hw]; simp [hne]
  have eo : ∀ m, m ≠ l → m ≠ s.source → w'.ents m = b.world.ents m := by
    intro m h1 h2; rw [hw]; simp [h1, h2]
  have hnx : w'.next = b.world.next := by rw [hw]
  have her : w'.errors = b.world.errors := by rw [hw]
  clear hw
  have hst : b.world.targets s.source = ts := by
    rw [World.targets_some hes, hfk.targets, hts]; rfl
  have hin : l ∈ ts ↔ l ∈ p.outs s.source := by
    rw [← hst, h.tgt, List.mem_map]
    constructor
    · rintro ⟨n, hn, hd⟩
      exact h.dest_eq hnop hd ▸ hn
    · intro hx
      exact ⟨l, hx, hdl⟩
  have tgs : w'.targets s.source = if l ∈ ts then ts else ts ++ [l] := by
    rw [World.targets_some eS]
    simp [Ent.targets, hfk.single, hfk.streams]
  have tgo : ∀ x, x ≠ s.source → w'.targets x = b.world.targets x := by
    intro x hx
    by_cases hxl : x = l
    · subst hxl
      rw [World.targets_some eL, addInput_targets, World.targets_some hel]
    · exact World.targets_congr (eo x hxl hx)
  have mtg : ∀ x y, y ∈ w'.targets x ↔ y ∈ b.world.targets x ∨ (x = s.source ∧ y = l) := by
    intro x y
    by_cases hx : x = s.source
    · subst hx
      rw [tgs, hst]
      by_cases hlt : l ∈ ts
      · rw [if_pos hlt]
        constructor
        · exact .inl
        · rintro (h1 | ⟨-, rfl⟩)
          · exact h1
          · exact hlt
      · rw [if_neg hlt, List.mem_append]; simp
    · rw [tgo x hx]; simp [hx]
  have inl : w'.inputs l = if s.source ∈ b.world.inputs l then b.world.inputs l
      else b.world.inputs l ++ [s.source] := by
    rw [World.inputs_some eL, addInput_inputs, World.inputs_some hel]
  have ino : ∀ y, y ≠ l → w'.inputs y = b.world.inputs y := by
    intro y hy
    by_cases hys : y = s.source
    · subst hys; rw [World.inputs_some eS, World.inputs_some hes]
    · exact World.inputs_congr (eo y hy hys)
  have op : ∀ m, w'.IsOp m ↔ b.world.IsOp m := by
    intro m
    by_cases hm : m = l
    · subst hm; rw [World.isOp_some eL, addInput_op, World.isOp_some hel]
    · by_cases hm' : m = s.source
      · subst hm'; rw [World.isOp_some eS, World.isOp_some hes]
      · exact World.isOp_congr (eo m hm hm')
  have nn : ∀ m, w'.ents m = none ↔ b.world.ents m = none := by
    intro m
    by_cases hm : m = l
    · subst hm; rw [eL, hel]; simp
    · by_cases hm' : m = s.source
      · subst hm'; rw [eS, hes]; simp
      · rw [eo m hm hm']
  have outo : ∀ o ∈ b.outs, w'.ents o.target = b.world.ents o.target := by
    intro o ho
    refine eo _ ?_ ?_
    · intro hx; exact hnout (hx ▸ List.mem_map_of_mem ho)
    · intro hx; exact h.out_not_op ho ⟨es, hx ▸ hes, hop⟩
  have lv : ∀ {y : Nat}, (b.world.IsOp y ∨ y ∈ b.outs.map (·.target) ∨ y ∈ [l]) →
      (w'.IsOp y ∨ y ∈ b.outs.map (·.target) ∨ y ∈ [l]) := by
    intro y hy; rw [op]; exact hy
  obtain ⟨f1, f2, f3, f4, f5, f6, f7⟩ := addInput_fields s.source el
  have mo : ∀ x n, n ∈ set p.outs s.source
      (if l ∈ p.outs s.source then p.outs s.source else p.outs s.source ++ [l]) x ↔
      n ∈ p.outs x ∨ (x = s.source ∧ n = l) := by
    intro x n
    unfold set
    by_cases hx : x = s.source
    · subst hx
      rw [if_pos rfl]
      by_cases hlt : l ∈ p.outs s.source
      · rw [if_pos hlt]
        constructor
        · exact .inl
        · rintro (h1 | ⟨-, rfl⟩)
          · exact h1
          · exact hlt
      · rw [if_neg hlt, List.mem_append]; simp
    · rw [if_neg hx]; simp [hx]
  constructor
  · exact h.next.trans hnx.symm
  · intro m hm
    exact (nn m).mpr (h.fresh m (by have : w'.next ≤ m := hm; omega))
  · exact her.trans h.clean
  · intro x
    show w'.targets x = (set p.outs s.source _ x).map p.dest
    unfold set
    by_cases hx : x = s.source
    · subst hx
      rw [if_pos rfl, tgs]
      by_cases hlt : l ∈ ts
      · rw [if_pos hlt, if_pos (hin.mp hlt), ← h.tgt, hst]
      · rw [if_neg hlt, if_neg (fun hx => hlt (hin.mpr hx)), List.map_append, ← h.tgt, hst]
        simp [hdl]
    · rw [if_neg hx, tgo x hx]; exact h.tgt x
  · intro x y
    show x ∈ w'.inputs y ↔ y ∈ w'.targets x
    rw [mtg, ← h.inp]
    by_cases hy : y = l
    · subst hy
      rw [inl]
      by_cases hlt : s.source ∈ b.world.inputs y
      · rw [if_pos hlt]
        constructor
        · exact .inl
        · rintro (h1 | ⟨rfl, -⟩)
          · exact h1
          · exact hlt
      · rw [if_neg hlt, List.mem_append]; simp
    · rw [ino y hy]; simp [hy]
  · intro y
    show (w'.inputs y).Nodup
    by_cases hy : y = l
    · subst hy
      rw [inl]
      split
      · exact h.nodupIn y
      · rename_i hlt
        rw [List.nodup_append]
        refine ⟨h.nodupIn y, by simp, ?_⟩
        intro a ha c hc hac
        simp only [List.mem_singleton] at hc
        exact hlt (hc ▸ hac ▸ ha)
    · rw [ino y hy]; exact h.nodupIn y
  · intro x y hy
    have hy' : y ∈ w'.targets x := hy
    rcases (mtg x y).mp hy' with h1 | ⟨-, rfl⟩
    · obtain ⟨h1, h2⟩ := h.live x y h1
      exact ⟨fun hx => h1 ((nn y).mp hx), lv h2⟩
    · exact ⟨fun hx => hal ((nn y).mp hx), .inr (.inr (by simp))⟩
  · intro o ho
    show (∃ e, w'.ents o.target = some e ∧ _) ∧ _
    rw [outo o ho]
    exact h.out o ho
  · exact h.nodup
  · intro m hm
    simp only [List.mem_singleton] at hm
    subst hm
    exact ⟨fun hx => hal ((nn m).mp hx), fun hx => hnop ((op m).mp hx), hnout, hdl⟩
  · intro n
    rcases h.dest n with h1 | h1
    · exact .inl h1
    · exact .inr ((op _).mpr h1)
  · exact h.destNew
  · intro n hn
    rcases hn with ⟨x, hx⟩ | hx
    · rcases (mo x n).mp hx with h1 | ⟨-, rfl⟩
      · exact h.bound n (.inl ⟨x, h1⟩)
      · show n < p.next
        rw [h.next]; exact hllt
    · exact h.bound n (.inr hx)
  · intro x
    show (w'.ents x).bind (·.entry) = (p.entry x).map p.dest
    rw [← h.ent x]
    by_cases hm : x = l
    · subst hm; rw [eL, hel]; exact f1
    · by_cases hm' : x = s.source
      · subst hm'; rw [eS, hes]; rfl
      · rw [eo x hm hm']
  · intro x n hn
    obtain ⟨h1, h2⟩ := h.entLive x n hn
    exact ⟨fun hx => h1 ((nn _).mp hx), lv h2⟩
  · intro o ho x
    show _ ↔ (w'.ents o.target).bind (·.entryFor) = some x
    rw [outo o ho]
    exact h.entFor o ho x
  · intro x n y hx hy
    rcases (mo y n).mp hy with h1 | ⟨-, rfl⟩
    · exact h.entNot x n y hx h1
    · exact hl x hx
  · intro n hn e1 he1 ho1
    have he1' : w'.ents (p.dest n) = some e1 := he1
    show e1.scope = some (p.home n)
    have hd : p.dest n ≠ l := by
      intro hx
      rw [hx] at he1'
      exact hnop ((op l).mp ⟨e1, he1', ho1⟩)
    have hn' : p.Named n := by
      rcases hn with ⟨x, hx⟩ | hx
      · rcases (mo x n).mp hx with h1 | ⟨-, rfl⟩
        · exact .inl ⟨x, h1⟩
        · exact absurd hdl hd
      · exact .inr hx
    by_cases hm' : p.dest n = s.source
    · rw [hm', eS] at he1'
      cases he1'
      exact h.home n hn' es (hm' ▸ hes) hop
    · rw [eo _ hd hm'] at he1'
      exact h.home n hn' e1 he1' ho1
  · intro x
    show ((w'.ents x).bind (·.contents)).getD [] = p.inside x
    rw [← h.inside x]
    by_cases hm : x = l
    · subst hm; rw [eL, hel]
      show (addInput s.source el).contents.getD [] = el.contents.getD []
      rw [f3]
    · by_cases hm' : x = s.source
      · subst hm'; rw [eS, hes]; rfl
      · rw [eo x hm hm']
  · intro t ht
    obtain ⟨e1, he1, h1, h2⟩ := h.slot t ht
    show ∃ e, w'.ents t.source = some e ∧ _
    by_cases hm : t.source = s.source
    · rw [hm] at he1 ⊢
      rw [hes] at he1; cases he1
      exact ⟨_, eS, h1, h2⟩
    · rw [eo _ (fun hx => hnop ⟨e1, hx ▸ he1, h1⟩) hm]
      exact ⟨e1, he1, h1, h2⟩
  · intro t ht
    obtain ⟨e1, he1, h1, h2⟩ := h.forks t ht
    show ∃ e, w'.ents t.source = some e ∧ _
    by_cases hm : t.source = s.source
    · rw [hm] at he1 ⊢
      rw [hes] at he1; cases he1
      exact ⟨_, eS, h1, ⟨h2.single, h2.streams, rfl⟩⟩
    · rw [eo _ (fun hx => hnop ⟨e1, hx ▸ he1, h1⟩) hm]
      exact ⟨e1, he1, h1, h2⟩
  · intro t ht
    obtain ⟨e1, he1, h1, h2⟩ := h.buffers t ht
    show ∃ e, w'.ents t.source = some e ∧ _
    by_cases hm : t.source = s.source
    · rw [hm] at he1 ⊢
      rw [hes] at he1; cases he1
      exact ⟨_, eS, h1, ⟨h2.single, h2.streams, rfl⟩⟩
    · rw [eo _ (fun hx => hnop ⟨e1, hx ▸ he1, h1⟩) hm]
      exact ⟨e1, he1, h1, h2⟩
  · intro t ht
    obtain ⟨e1, he1, h1, h2⟩ := h.scopes t ht
    show ∃ e, w'.ents t = some e ∧ _
    by_cases hm : t = s.source
    · rw [hm] at he1 ⊢
      rw [hes] at he1; cases he1
      exact ⟨_, eS, h1, h2⟩
    · rw [eo _ (fun hx => hnop ⟨e1, hx ▸ he1, h1⟩) hm]
      exact ⟨e1, he1, h1, h2⟩

end Verif.Wire
