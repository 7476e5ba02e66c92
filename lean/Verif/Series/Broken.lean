import Verif.Series.Record

/-
A series whose only step broke: nothing but a cancellation ends it.
-/
namespace Verif.Series

/-- Entity 1 is a step that is done without having answered, entity 0 its terminal. -/
structure Stuck (w : World) : Prop where
  inv : Inv w
  last : ∃ n, w.nodes 0 = some n ∧ n.kind = .taken ∧ n.inputs = [] ∧ n.target = none ∧
    n.parent = none
  step : ∃ n, w.nodes 1 = some n ∧ n.kind = .done ∧ n.inputs = [] ∧ n.target = some 0 ∧
    n.parent = some 0
  first : ∀ y n, w.nodes y = some n → n.target ≠ some 1
  told : ∀ o, (0, o) ∉ w.outcomes

/-- Only nodes other than these two are touched. -/
theorem Stuck.same {w w' : World} (h : Stuck w) (hi : Inv w') (h0 : w'.nodes 0 = w.nodes 0)
    (h1 : w'.nodes 1 = w.nodes 1)
    (ht : ∀ y n', w'.nodes y = some n' → ∃ n, w.nodes y = some n ∧ n'.target = n.target)
    (ho : ∀ o, (0, o) ∉ w'.outcomes) : Stuck w' := by
  refine ⟨hi, by rw [h0]; exact h.last, by rw [h1]; exact h.step, ?_, ho⟩
  intro y n' hy
  obtain ⟨n, hn, e⟩ := ht y n' hy
  rw [e]
  exact h.first y n hn

theorem Stuck.outside {w : World} (h : Stuck w) {x : Nat} (h0 : x ≠ 0) (h1 : x ≠ 1) :
    ¬ Inside w x 0 ∧ ¬ Inside w x 1 := by
  obtain ⟨n, hn, -, -, -, hp⟩ := h.last
  obtain ⟨m, hm, -, -, -, hq⟩ := h.step
  have a : ¬ Inside w x 0 := by
    intro hi
    cases hi with
    | self => exact h0 rfl
    | child hy hpar _ => rw [hn] at hy; cases hy; rw [hp] at hpar; cases hpar
  refine ⟨a, ?_⟩
  intro hi
  cases hi with
  | self => exact h1 rfl
  | child hy hpar hi' =>
    rw [hm] at hy; cases hy
    rw [hq] at hpar; cases hpar
    exact a hi'

theorem Stuck.despawn {w w' : World} (h : Stuck w) (hi : Inv w') {x : Nat} (h0 : x ≠ 0)
    (h1 : x ≠ 1) (hn : w'.nodes = (w.despawn x).nodes) (ho : ∀ o, (0, o) ∉ w'.outcomes) :
    Stuck w' := by
  have hf := h.inv.net.forest
  obtain ⟨a, b⟩ := h.outside h0 h1
  refine h.same hi (by rw [hn, despawn_out hf a]) (by rw [hn, despawn_out hf b]) ?_ ho
  intro y n' hy
  rw [hn] at hy
  exact ⟨n', (despawn_some hf hy).2, rfl⟩

theorem Stuck.set {w w' : World} (h : Stuck w) (hi : Inv w') {x : Nat} {n n' : Node}
    (hx : w.nodes x = some n) (h0 : x ≠ 0) (h1 : x ≠ 1) (ht : n'.target = n.target)
    (hn : w'.nodes = (w.set x n').nodes) (ho : ∀ o, (0, o) ∉ w'.outcomes) : Stuck w' := by
  refine h.same hi ?_ ?_ ?_ ho
  · rw [hn, set_other _ _ (fun e => h0 e.symm)]
  · rw [hn, set_other _ _ (fun e => h1 e.symm)]
  · intro y m hy
    rw [hn] at hy
    by_cases e : y = x
    · subst e
      rw [set_self] at hy; cases hy
      exact ⟨n, hx, ht⟩
    · rw [set_other _ _ e] at hy
      exact ⟨m, hy, rfl⟩

theorem Stuck.give {w : World} (h : Stuck w) {t s v : Nat} (hi : Inv (w.give t s v))
    (h0 : t ≠ 0) (h1 : t ≠ 1) : Stuck (w.give t s v) := by
  have g := give_given w t s v
  refine h.same hi (g.other 0 (fun e => h0 e.symm)) (g.other 1 (fun e => h1 e.symm)) ?_
    (by rw [g.outcomes]; exact h.told)
  intro y n' hy
  by_cases e : y = t
  · subst e
    cases hw : w.nodes y with
    | none => rw [g.dead hw] at hy; cases hy
    | some n =>
      obtain ⟨i, hi⟩ := g.self n hw
      rw [hi] at hy; cases hy
      exact ⟨n, rfl, rfl⟩
  · rw [g.other y e] at hy
    exact ⟨n', hy, rfl⟩

theorem Stuck.opStep {w : World} (h : Stuck w) (op : Op) (h0 : op ≠ .cancel 0)
    (h1 : op ≠ .cancel 1) : Stuck (w.step op) := by
  have hI := h.inv
  have hf := hI.net.forest
  have hi := hI.step op
  obtain ⟨n0, hn0, hk0, hi0, ht0, hp0⟩ := h.last
  obtain ⟨n1, hn1, hk1, hi1, ht1, hp1⟩ := h.step
  by_cases hb : op.builds = true
  · have b := built_step hI hb
    have e0 : (w.step op).nodes 0 = w.nodes 0 := by
      rw [hn0]
      refine b.fix 0 n0 hn0 (by rw [hk0]; simp) ?_
      intro t m ht
      rw [ht0] at ht; cases ht
    have e1 : (w.step op).nodes 1 = w.nodes 1 := by
      rw [hn1]
      refine b.fix 1 n1 hn1 (by rw [hk1]; simp) ?_
      intro t m ht hm
      rw [ht1] at ht; cases ht
      rw [hn0] at hm; cases hm
      rw [hk0]; simp
    refine ⟨hi, by rw [e0]; exact h.last, by rw [e1]; exact h.step, ?_,
      by rw [b.outcomes]; exact h.told⟩
    intro y n hy ht
    obtain ⟨m, hm, hmt⟩ := b.targets y n 1 hy ht (hf.lt hn1)
    exact h.first y m hm hmt
  cases op with
  | exec =>
    simp only [World.step] at hi ⊢
    rcases exec_cases w with ⟨-, he⟩ | ⟨x, rest, hq, hc⟩
    · rw [he]; exact h
    · have hx01 : ∀ n, w.nodes x = some n → n.inputs ≠ [] → x ≠ 0 ∧ x ≠ 1 := by
        intro n hn hne
        refine ⟨fun e => ?_, fun e => ?_⟩
        · subst e; rw [hn0] at hn; cases hn; exact hne hi0
        · subst e; rw [hn1] at hn; cases hn; exact hne hi1
      cases hc with
      | skip he =>
        refine h.same hi (by rw [he]) (by rw [he]) ?_ (by rw [he]; exact h.told)
        intro y n' hy
        rw [he] at hy
        exact ⟨n', hy, rfl⟩
      | start n s v more hx hin hk he =>
        obtain ⟨a, b⟩ := hx01 n hx (by rw [hin]; simp)
        exact h.set (n' := { n with inputs := more, kind := .busy s }) hi hx a b rfl
          (by rw [he]) (by rw [he]; exact h.told)
      | item n s v more hx hin hk he =>
        obtain ⟨a, b⟩ := hx01 n hx (by rw [hin]; simp)
        exact h.set (n' := { n with inputs := more }) hi hx a b rfl
          (by rw [he]) (by rw [he]; exact h.told)
      | keep n s v e more hx hin hk he =>
        obtain ⟨a, b⟩ := hx01 n hx (by rw [hin]; simp)
        exact h.set (n' := { n with inputs := more }) hi hx a b rfl
          (by rw [he]) (by rw [he]; exact h.told)
      | sent n s v more hx hin hk hn hq' hnx ho =>
        obtain ⟨a, b⟩ := hx01 n hx (by rw [hin]; simp)
        refine h.despawn hi a b hn ?_
        intro o hm
        rw [ho] at hm
        rcases List.mem_append.1 hm with hm | hm
        · exact h.told o hm
        · simp at hm; exact a hm.1.symm
      | gone n s v more hx hin hk hn hq' hnx ho =>
        obtain ⟨a, b⟩ := hx01 n hx (by rw [hin]; simp)
        exact h.despawn hi a b hn (by rw [ho]; exact h.told)
  | emit x ty v =>
    have hi' : Inv (w.emit x ty v) := hi
    show Stuck (w.emit x ty v)
    unfold World.emit at hi' ⊢
    cases hx : w.nodes x with
    | none => exact h
    | some n =>
      simp only [hx] at hi' ⊢
      cases hk : n.kind with
      | busy s =>
        simp only [hk] at hi' ⊢
        cases he : n.streams.find? fun e => e.1 = ty with
        | none => exact h
        | some d =>
          simp only [he] at hi' ⊢
          have hm := List.mem_of_find?_eq_some he
          refine h.give hi' ?_ ?_
          · intro e
            have := (hI.net.mapLeaf _ _ _ _ hx hm (e ▸ hn0)).1
            rw [hk0] at this; cases this
          · intro e
            have := (hI.net.mapLeaf _ _ _ _ hx hm (e ▸ hn1)).1
            rw [hk1] at this; cases this
      | _ => exact h
  | respond x v =>
    have hi' : Inv (w.respond x v) := hi
    show Stuck (w.respond x v)
    unfold World.respond at hi' ⊢
    cases hx : w.nodes x with
    | none => exact h
    | some n =>
      simp only [hx] at hi' ⊢
      split at hi'
      · next s t hk ht =>
        have hx0 : x ≠ 0 := by intro e; subst e; rw [hn0] at hx; cases hx; rw [hk0] at hk; cases hk
        have hx1 : x ≠ 1 := by intro e; subst e; rw [hn1] at hx; cases hx; rw [hk1] at hk; cases hk
        have hs := h.set (w' := w.set x { n with kind := .done }) (hI.done hx hk) hx hx0 hx1
          (n' := { n with kind := .done }) rfl rfl h.told
        refine hs.give hi' ?_ ?_
        · intro e
          subst e
          exact hx1 (hI.net.inj _ _ _ _ _ hx hn1 ht ht1)
        · intro e
          subst e
          exact h.first x n hx ht
      · exact h
  | cancel x =>
    simp only [World.step] at hi ⊢
    cases cancel_cases hf x with
    | none hn hq hnx ho =>
      refine h.same hi (by rw [hn]) (by rw [hn]) ?_ (by rw [ho]; exact h.told)
      intro y n' hy
      rw [hn] at hy
      exact ⟨n', hy, rfl⟩
    | some t n m hx hc hl ht hn hq hnx ho =>
      have key : ∀ x t, Leads w x t → t = 0 → x = 0 ∨ x = 1 := by
        intro x t hl
        induction hl with
        | last => exact fun e => .inl e
        | next hy hty hl' ih =>
          intro e
          rcases ih e with rfl | rfl
          · exact .inr (hI.net.inj _ _ _ _ _ hy hn1 hty ht1)
          · exact absurd hty (h.first _ _ hy)
      have ht0' : t ≠ 0 := by
        intro e
        rcases key x t hl e with rfl | rfl
        · exact h0 rfl
        · exact h1 rfl
      have ht1' : t ≠ 1 := by
        intro e
        subst e
        obtain ⟨q, hq, hqt⟩ := hl.end
        rw [hn1] at hq; cases hq
        rw [ht1] at hqt; cases hqt
      refine h.despawn hi ht0' ht1' hn ?_
      intro o hm
      rw [ho] at hm
      rcases List.mem_append.1 hm with hm | hm
      · exact h.told o hm
      · split at hm
        · simp at hm; exact ht0' hm.1.symm
        · simp at hm
  | breaks x =>
    have hi' : Inv (w.breaks x) := hi
    show Stuck (w.breaks x)
    unfold World.breaks at hi' ⊢
    cases hx : w.nodes x with
    | none => exact h
    | some n =>
      simp only [hx] at hi' ⊢
      cases hk : n.kind with
      | busy s =>
        simp only [hk] at hi' ⊢
        refine h.set (n' := { n with kind := .done }) hi' hx ?_ ?_ rfl rfl h.told
        · intro e; subst e; rw [hn0] at hx; cases hx; rw [hk0] at hk; cases hk
        · intro e; subst e; rw [hn1] at hx; cases hx; rw [hk1] at hk; cases hk
      | _ => exact h
  | _ => simp [Op.builds] at hb

theorem stuck_fold {w : World} (h : Stuck w) (ops : List Op)
    (hops : ∀ op ∈ ops, op ≠ .cancel 0 ∧ op ≠ .cancel 1) : Stuck (ops.foldl World.step w) := by
  induction ops generalizing w with
  | nil => exact h
  | cons op ops ih =>
    obtain ⟨a, b⟩ := hops op List.mem_cons_self
    exact ih (h.opStep op a b) fun o ho => hops o (List.mem_cons_of_mem _ ho)

end Verif.Series
