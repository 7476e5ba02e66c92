import Verif.Series.Built

/-
What was recorded: outcomes of promises and items of streams.
-/
namespace Verif.Series

/-- The effect of giving an input. -/
structure Given (w : World) (t : Nat) (w' : World) : Prop where
  next : w'.next = w.next
  outcomes : w'.outcomes = w.outcomes
  received : w'.received = w.received
  collected : w'.collected = w.collected
  other : ∀ y, y ≠ t → w'.nodes y = w.nodes y
  self : ∀ n, w.nodes t = some n → ∃ i, w'.nodes t = some { n with inputs := i }
  dead : w.nodes t = none → w'.nodes t = none

theorem give_given (w : World) (t s v : Nat) : Given w t (w.give t s v) := by
  unfold World.give
  cases ht : w.nodes t with
  | none =>
    dsimp only
    exact ⟨rfl, rfl, rfl, rfl, fun _ _ => rfl, (fun n hn => by rw [ht] at hn; cases hn), fun _ => ht⟩
  | some n =>
    dsimp only
    split
    · exact ⟨rfl, rfl, rfl, rfl, fun _ _ => rfl,
        fun n hn => ⟨n.inputs, hn⟩, (fun h => by rw [ht] at h; cases h)⟩
    · split
      · exact ⟨rfl, rfl, rfl, rfl, fun _ _ => rfl,
          fun n hn => ⟨n.inputs, hn⟩, (fun h => by rw [ht] at h; cases h)⟩
      · refine ⟨rfl, rfl, rfl, rfl, fun y hy => set_other _ _ hy, ?_,
          fun h => by rw [ht] at h; cases h⟩
        intro m hm
        rw [ht] at hm; cases hm
        exact ⟨_, set_self _ _ _⟩

/-- No entity comes back. -/
theorem no_revive {w : World} (h : Inv w) (op : Op) :
    w.next ≤ (w.step op).next ∧
    ∀ y, y < w.next → w.nodes y = none → (w.step op).nodes y = none := by
  have hf := h.net.forest
  by_cases hop : op.builds = true
  · have := built_step h hop
    exact ⟨this.next, this.dead⟩
  have hset : ∀ (w' : World) x n n' y, w.nodes x = some n → w'.nodes = (w.set x n').nodes →
      w.nodes y = none → w'.nodes y = none := by
    intro w' x n n' y hx hw hy
    rw [hw, set_other _ _ (fun e => by rw [e, hx] at hy; cases hy)]; exact hy
  have hdes : ∀ (w' : World) x y, w'.nodes = (w.despawn x).nodes →
      w.nodes y = none → w'.nodes y = none := by
    intro w' x y hw hy
    rw [hw]
    by_cases hi : Inside w x y
    · exact despawn_in hf hi
    · rw [despawn_out hf hi]; exact hy
  cases op with
  | exec =>
    show _ ≤ w.exec.next ∧ _
    rcases exec_cases w with ⟨-, he⟩ | ⟨x, rest, hq, hc⟩
    · simp only [World.step]
      rw [he]; exact ⟨Nat.le_refl _, fun _ _ h => h⟩
    · cases hc with
      | skip he => simp only [World.step]; rw [he]; exact ⟨Nat.le_refl _, fun _ _ h => h⟩
      | start n s v more hx hi hk he =>
        exact ⟨by rw [he]; exact Nat.le_refl _, fun y _ hy => hset _ x n _ y hx (by rw [World.step, he]) hy⟩
      | item n s v more hx hi hk he =>
        exact ⟨by rw [he]; exact Nat.le_refl _, fun y _ hy => hset _ x n _ y hx (by rw [World.step, he]) hy⟩
      | keep n s v e more hx hi hk he =>
        exact ⟨by rw [he]; exact Nat.le_refl _, fun y _ hy => hset _ x n _ y hx (by rw [World.step, he]) hy⟩
      | sent n s v more hx hi hk hn hq' hnx =>
        exact ⟨by rw [hnx]; exact Nat.le_refl _, fun y _ hy => hdes _ x y hn hy⟩
      | gone n s v more hx hi hk hn hq' hnx =>
        exact ⟨by rw [hnx]; exact Nat.le_refl _, fun y _ hy => hdes _ x y hn hy⟩
  | emit x ty v =>
    show _ ≤ (w.emit x ty v).next ∧ ∀ y, _ → _ → (w.emit x ty v).nodes y = none
    have key : w.emit x ty v = w ∨ ∃ t s, w.emit x ty v = w.give t s v := by
      unfold World.emit
      cases w.nodes x with
      | none => exact .inl rfl
      | some n =>
        dsimp only
        cases n.kind with
        | busy s =>
          dsimp only
          cases n.streams.find? fun e => e.1 = ty with
          | none => exact .inl rfl
          | some e => exact .inr ⟨_, _, rfl⟩
        | _ => exact .inl rfl
    rcases key with e | ⟨t, s, e⟩
    · rw [e]; exact ⟨Nat.le_refl _, fun _ _ h => h⟩
    · rw [e]
      have g := give_given w t s v
      refine ⟨Nat.le_of_eq g.next.symm, ?_⟩
      intro y _ hy
      by_cases e : y = t
      · subst e; exact g.dead hy
      · rw [g.other y e]; exact hy
  | respond x v =>
    show _ ≤ (w.respond x v).next ∧ ∀ y, _ → _ → (w.respond x v).nodes y = none
    unfold World.respond
    cases hx : w.nodes x with
    | none => exact ⟨Nat.le_refl _, fun _ _ h => h⟩
    | some n =>
      dsimp only
      split
      · next s t hk ht =>
        have g := give_given (w.set x { n with kind := .done }) t s v
        refine ⟨Nat.le_of_eq g.next.symm, ?_⟩
        intro y _ hy
        have hy' : (w.set x { n with kind := .done }).nodes y = none := by
          rw [set_other _ _ (fun e => by rw [e, hx] at hy; cases hy)]; exact hy
        by_cases e : y = t
        · subst e; exact g.dead hy'
        · rw [g.other y e]; exact hy'
      · exact ⟨Nat.le_refl _, fun _ _ h => h⟩
  | cancel x =>
    cases cancel_cases hf x with
    | none hn hq hnx =>
      exact ⟨Nat.le_of_eq hnx.symm, fun y _ hy => by
        show (w.cancel x).nodes y = none
        rw [hn]; exact hy⟩
    | some t n m hx hc hl ht hn hq hnx =>
      exact ⟨Nat.le_of_eq hnx.symm, fun y _ hy => hdes _ t y hn hy⟩
  | breaks x =>
    show _ ≤ (w.breaks x).next ∧ ∀ y, _ → _ → (w.breaks x).nodes y = none
    unfold World.breaks
    cases hx : w.nodes x with
    | none => exact ⟨Nat.le_refl _, fun _ _ h => h⟩
    | some n =>
      dsimp only
      split
      · exact ⟨Nat.le_refl _, fun y _ hy => by
          show (w.set x _).nodes y = none
          rw [set_other _ _ (fun e => by rw [e, hx] at hy; cases hy)]; exact hy⟩
      · exact ⟨Nat.le_refl _, fun _ _ h => h⟩
  | _ => simp [Op.builds] at hop

theorem dead_fold {w : World} (h : Inv w) (ops : List Op) {y : Nat} (hy : y < w.next)
    (hd : w.nodes y = none) : (ops.foldl World.step w).nodes y = none := by
  induction ops generalizing w with
  | nil => exact hd
  | cons op ops ih =>
    obtain ⟨h1, h2⟩ := no_revive h op
    exact ih (h.step op) (by omega) (h2 y hy hd)

/-- The promise is told something only when its terminal goes. -/
theorem outcomes_step {w : World} (h : Inv w) (op : Op) :
    (w.step op).outcomes = w.outcomes ∨
    ∃ t o n, (w.step op).outcomes = w.outcomes ++ [(t, o)] ∧ w.nodes t = some n ∧
      (w.step op).nodes t = none := by
  have hf := h.net.forest
  by_cases hop : op.builds = true
  · exact .inl (built_step h hop).outcomes
  cases op with
  | exec =>
    simp only [World.step]
    rcases exec_cases w with ⟨-, he⟩ | ⟨x, rest, hq, hc⟩
    · rw [he]; exact .inl rfl
    · cases hc with
      | skip he => rw [he]; exact .inl rfl
      | start n s v more hx hi hk he => rw [he]; exact .inl rfl
      | item n s v more hx hi hk he => rw [he]; exact .inl rfl
      | keep n s v e more hx hi hk he => rw [he]; exact .inl rfl
      | sent n s v more hx hi hk hn hq' hnx ho =>
        refine .inr ⟨x, _, n, ho, hx, ?_⟩
        rw [hn]
        exact despawn_in hf .self
      | gone n s v more hx hi hk hn hq' hnx ho => exact .inl ho
  | emit x ty v =>
    left
    show (w.emit x ty v).outcomes = _
    unfold World.emit
    cases w.nodes x with
    | none => rfl
    | some n =>
      dsimp only
      cases n.kind with
      | busy s =>
        dsimp only
        cases n.streams.find? fun e => e.1 = ty with
        | none => rfl
        | some e => exact (give_given _ _ _ _).outcomes
      | _ => rfl
  | respond x v =>
    left
    show (w.respond x v).outcomes = _
    unfold World.respond
    cases w.nodes x with
    | none => rfl
    | some n =>
      dsimp only
      split
      · exact (give_given _ _ _ _).outcomes
      · rfl
  | cancel x =>
    cases cancel_cases hf x with
    | none hn hq hnx ho => exact .inl ho
    | some t n m hx hc hl ht hn hq hnx ho =>
      simp only [World.step]
      rw [ho]
      by_cases hk : m.kind = .taken
      · right
        rw [if_pos hk]
        refine ⟨t, _, m, rfl, ht, ?_⟩
        rw [hn]
        exact despawn_in hf .self
      · left
        rw [if_neg hk, List.append_nil]
  | breaks x =>
    left
    show (w.breaks x).outcomes = _
    unfold World.breaks
    cases w.nodes x with
    | none => rfl
    | some n =>
      dsimp only
      split <;> rfl
  | _ => simp [Op.builds] at hop

/-- No promise is told anything twice. -/
structure Told (w : World) : Prop where
  nodup : (w.outcomes.map (·.1)).Nodup
  dead : ∀ r, r ∈ w.outcomes → r.1 < w.next ∧ w.nodes r.1 = none

theorem Told.step {w : World} (h : Inv w) (ht : Told w) (op : Op) : Told (w.step op) := by
  obtain ⟨h1, h2⟩ := no_revive h op
  rcases outcomes_step h op with ho | ⟨t, o, n, ho, hn, hd⟩
  · refine ⟨by rw [ho]; exact ht.nodup, ?_⟩
    intro r hr
    rw [ho] at hr
    obtain ⟨k1, k2⟩ := ht.dead r hr
    exact ⟨by omega, h2 _ k1 k2⟩
  · refine ⟨?_, ?_⟩
    · rw [ho, List.map_append, List.nodup_append]
      refine ⟨ht.nodup, by simp, ?_⟩
      intro a ha b hb
      simp at hb
      subst hb
      intro e
      subst e
      obtain ⟨r, hr, e⟩ := List.mem_map.1 ha
      have := (ht.dead r hr).2
      rw [e, hn] at this
      cases this
    · intro r hr
      rw [ho] at hr
      rcases List.mem_append.1 hr with hr | hr
      · obtain ⟨k1, k2⟩ := ht.dead r hr
        exact ⟨by omega, h2 _ k1 k2⟩
      · simp at hr
        subst hr
        exact ⟨by have := h.net.forest.lt hn; show t < _; omega, hd⟩

theorem told_fold {w : World} (h : Inv w) (ht : Told w) (ops : List Op) :
    Told (ops.foldl World.step w) := by
  induction ops generalizing w with
  | nil => exact ht
  | cons op ops ih => exact ih (h.step op) (ht.step h op)

theorem told_run (ops : List Op) : Told (run ops) :=
  told_fold inv_init ⟨by simp, by simp⟩ ops

/-! ### The ledger of a stream that is taken -/

structure Ledger (c : Nat) (w : World) (e : List Nat) : Prop where
  fresh : w.next ≤ c → e = [] ∧ got w c = []
  alive : ∀ n, w.nodes c = some n → n.kind = .takenStream →
    got w c ++ n.inputs.map (·.2) = e

/-- What one operation emits into `c`. -/
def emits (c : Nat) (w : World) (op : Op) : List Nat := emitted c w [op]

theorem emits_nil {c : Nat} {w : World} {op : Op} (h : ∀ x ty v, op ≠ .emit x ty v) :
    emits c w op = [] := by
  cases op with
  | emit x ty v => exact absurd rfl (h x ty v)
  | _ => simp [emits, emitted]

/-- Nothing happens to `c`. -/
theorem Ledger.same {c : Nat} {w w' : World} {e : List Nat} (h : Ledger c w e)
    (hnx : w.next ≤ w'.next) (hr : got w' c = got w c)
    (hn : ∀ n', w'.nodes c = some n' → n'.kind = .takenStream →
      ∃ n, w.nodes c = some n ∧ n.kind = .takenStream ∧ n'.inputs = n.inputs) :
    Ledger c w' e := by
  refine ⟨fun hle => ?_, ?_⟩
  · rw [hr]; exact h.fresh (by omega)
  · intro n' hn' hk
    obtain ⟨n, h1, h2, h3⟩ := hn n' hn' hk
    rw [hr, h3]
    exact h.alive n h1 h2

theorem got_append (w w' : World) (c x v : Nat) (h : w'.received = w.received ++ [(x, v)]) :
    got w' c = got w c ++ if x = c then [v] else [] := by
  simp only [got, h, List.filter_append, List.map_append]
  congr 1
  by_cases e : x = c <;> simp [e]

theorem Ledger.step {c : Nat} {w : World} {e : List Nat} (hI : Inv w) (h : Ledger c w e)
    (op : Op) : Ledger c (w.step op) (e ++ emits c w op) := by
  have hf := hI.net.forest
  by_cases hop : op.builds = true
  · rw [emits_nil (by intro x ty v e; subst e; simp [Op.builds] at hop), List.append_nil]
    have b := built_step hI hop
    have hr : got (w.step op) c = got w c := by simp only [got, b.received]
    refine ⟨fun hle => by rw [hr]; exact h.fresh (Nat.le_trans b.next hle), ?_⟩
    intro n' hn' hk
    rw [hr]
    by_cases hlt : c < w.next
    · cases hc : w.nodes c with
      | none => rw [b.dead c hlt hc] at hn'; cases hn'
      | some n =>
        obtain ⟨m, h1, h2, h3, -⟩ := b.old c n hc
        rw [hn'] at h1; cases h1
        rw [h2]
        exact h.alive n hc (h3.1 hk)
    · obtain ⟨h1, h2⟩ := h.fresh (by omega)
      rw [h1, h2, b.new c n' (by omega) hn' hk]
      rfl
  have hdes : ∀ (w' : World) x, w'.nodes = (w.despawn x).nodes → ∀ n', w'.nodes c = some n' →
      n'.kind = .takenStream → ∃ n, w.nodes c = some n ∧ n.kind = .takenStream ∧
        n'.inputs = n.inputs := by
    intro w' x hw n' hn' hk
    rw [hw] at hn'
    exact ⟨n', (despawn_some hf hn').2, hk, rfl⟩
  cases op with
  | exec =>
    rw [emits_nil (by intros; simp), List.append_nil]
    simp only [World.step]
    rcases exec_cases w with ⟨-, he⟩ | ⟨x, rest, hq, hc⟩
    · rw [he]; exact h
    · cases hc with
      | skip he =>
        rw [he]
        exact h.same (Nat.le_refl _) rfl fun n' hn' hk => ⟨n', hn', hk, rfl⟩
      | start n s v more hx hi hk he =>
        rw [he]
        refine h.same (Nat.le_refl _) rfl fun n' hn' hk' => ?_
        by_cases e : c = x
        · subst e
          have hn'' : (w.set c { n with inputs := more, kind := .busy s }).nodes c = some n' := hn'
          rw [set_self] at hn''; cases hn''
          simp at hk'
        · have hn'' : (w.set x { n with inputs := more, kind := .busy s }).nodes c = some n' := hn'
          rw [set_other _ _ e] at hn''
          exact ⟨n', hn'', hk', rfl⟩
      | item n s v more hx hi hk he =>
        have hr := got_append w w.exec c x v (by rw [he])
        refine ⟨fun hle => ?_, ?_⟩
        · have hle' : w.next ≤ c := by rw [he] at hle; exact hle
          have : x ≠ c := by have := hf.lt hx; omega
          rw [hr, if_neg this, List.append_nil]
          exact h.fresh hle'
        · intro n' hn' hk'
          rw [hr]
          by_cases e : x = c
          · subst e
            have hn'' : (w.set x { n with inputs := more }).nodes x = some n' := by
              rw [he] at hn'; exact hn'
            rw [set_self] at hn''; cases hn''
            have := h.alive n hx hk
            rw [hi] at this
            simpa using this
          · have hn'' : (w.set x { n with inputs := more }).nodes c = some n' := by
              rw [he] at hn'; exact hn'
            rw [set_other _ _ (fun e' => e e'.symm)] at hn''
            rw [if_neg e, List.append_nil]
            exact h.alive n' hn'' hk'
      | keep n s v e more hx hi hk he =>
        rw [he]
        refine h.same (Nat.le_refl _) rfl fun n' hn' hk' => ?_
        by_cases e : c = x
        · subst e
          have hn'' : (w.set c { n with inputs := more }).nodes c = some n' := hn'
          rw [set_self] at hn''; cases hn''
          rw [hk] at hk'; simp at hk'
        · have hn'' : (w.set x { n with inputs := more }).nodes c = some n' := hn'
          rw [set_other _ _ e] at hn''
          exact ⟨n', hn'', hk', rfl⟩
      | sent n s v more hx hi hk hn hq' hnx ho hr =>
        exact h.same (Nat.le_of_eq hnx.symm) (by simp only [got, hr]) (hdes _ x hn)
      | gone n s v more hx hi hk hn hq' hnx ho hr =>
        exact h.same (Nat.le_of_eq hnx.symm) (by simp only [got, hr]) (hdes _ x hn)
  | emit x ty v =>
    show Ledger c (w.emit x ty v) _
    simp only [emits, emitted, List.append_nil]
    unfold World.emit
    cases hx : w.nodes x with
    | none => dsimp only; rw [List.append_nil]; exact h
    | some n =>
      dsimp only
      cases hk : n.kind with
      | busy s =>
        dsimp only
        cases he : n.streams.find? fun e => e.1 = ty with
        | none => simp; exact h
        | some d =>
          dsimp only
          have hm := List.mem_of_find?_eq_some he
          have hlt := hI.net.mapLt _ _ _ hx hm
          have g := give_given w d.2 s v
          have hrec : got (w.give d.2 s v) c = got w c := by simp only [got, g.received]
          by_cases ed : d.2 = c
          · refine ⟨fun hle => ?_, ?_⟩
            · rw [g.next] at hle; omega
            · intro n' hn' hk'
              cases hc : w.nodes c with
              | none =>
                rw [ed] at g
                rw [ed, g.dead hc] at hn'; cases hn'
              | some m =>
                have hcd : w.nodes d.2 = some m := by rw [ed]; exact hc
                have hg := good_stream hI.net hx hk hm hcd
                have hl := (hI.net.mapLeaf _ _ _ _ hx hm hcd).1
                rw [hrec]
                rw [give_eq hcd hg (by intro e'; rw [e'] at hl; cases hl)] at hn'
                have hn'' : (w.set d.2 { m with inputs := m.inputs ++ [(s, v)] }).nodes c =
                  some n' := hn'
                rw [ed, set_self] at hn''; cases hn''
                have := h.alive m hc hk'
                simp [ed]
                rw [← this]
                simp
          · simp only [Option.map_some, Option.some.injEq, ed, if_false, List.append_nil]
            refine h.same (Nat.le_of_eq g.next.symm) hrec fun n' hn' hk' => ?_
            rw [g.other c (fun e' => ed e'.symm)] at hn'
            exact ⟨n', hn', hk', rfl⟩
      | _ => dsimp only; rw [List.append_nil]; exact h
  | respond x v =>
    rw [emits_nil (by intros; simp), List.append_nil]
    show Ledger c (w.respond x v) _
    unfold World.respond
    cases hx : w.nodes x with
    | none => exact h
    | some n =>
      dsimp only
      split
      · next s t hk ht =>
        have g := give_given (w.set x { n with kind := .done }) t s v
        refine h.same (Nat.le_of_eq g.next.symm) ?_ fun n' hn' hk' => ?_
        · show List.map _ (List.filter _ _) = _
          rw [g.received]; rfl
        · have h1 := hI.done hx hk
          obtain ⟨m, hm, hml⟩ := target_nonleaf h1.net (set_self w x _) ht
          have hct : c ≠ t := by
            intro e
            subst e
            obtain ⟨i, hi⟩ := g.self m hm
            rw [hi] at hn'; cases hn'
            rw [show m.kind = .takenStream from hk'] at hml; cases hml
          rw [g.other c hct] at hn'
          by_cases e : c = x
          · subst e
            rw [set_self] at hn'; cases hn'
            simp at hk'
          · rw [set_other _ _ e] at hn'
            exact ⟨n', hn', hk', rfl⟩
      · exact h
  | cancel x =>
    rw [emits_nil (by intros; simp), List.append_nil]
    show Ledger c (w.cancel x) _
    cases cancel_cases hf x with
    | none hn hq hnx ho hr =>
      exact h.same (Nat.le_of_eq hnx.symm) (by simp only [got, hr]) fun n' hn' hk' =>
        ⟨n', by rw [← hn]; exact hn', hk', rfl⟩
    | some t n m hx hc hl ht hn hq hnx ho hr =>
      exact h.same (Nat.le_of_eq hnx.symm) (by simp only [got, hr]) (hdes _ t hn)
  | breaks x =>
    rw [emits_nil (by intros; simp), List.append_nil]
    show Ledger c (w.breaks x) _
    unfold World.breaks
    cases hx : w.nodes x with
    | none => exact h
    | some n =>
      dsimp only
      split
      · next s hk =>
        refine h.same (Nat.le_refl _) rfl fun n' hn' hk' => ?_
        by_cases e : c = x
        · subst e
          have hn'' : (w.set c { n with kind := .done }).nodes c = some n' := hn'
          rw [set_self] at hn''; cases hn''
          simp at hk'
        · have hn'' : (w.set x { n with kind := .done }).nodes c = some n' := hn'
          rw [set_other _ _ e] at hn''
          exact ⟨n', hn'', hk', rfl⟩
      · exact h
  | _ => simp [Op.builds] at hop

theorem emitted_cons (c : Nat) (w : World) (op : Op) (ops : List Op) :
    emitted c w (op :: ops) = emits c w op ++ emitted c (w.step op) ops := by
  simp [emits, emitted]

theorem ledger_fold {c : Nat} {w : World} {e : List Nat} (hI : Inv w) (h : Ledger c w e)
    (ops : List Op) : Ledger c (ops.foldl World.step w) (e ++ emitted c w ops) := by
  induction ops generalizing w e with
  | nil => simpa [emitted] using h
  | cons op ops ih =>
    have := ih (hI.step op) (h.step hI op)
    rw [emitted_cons, ← List.append_assoc]
    exact this

theorem ledger_run (c : Nat) (ops : List Op) : Ledger c (run ops) (emitted c {} ops) := by
  have : Ledger c {} [] := ⟨fun _ => ⟨rfl, rfl⟩, fun n h => by simp at h⟩
  have h := ledger_fold inv_init this ops
  rw [List.nil_append] at h
  exact h

/-! ### Receivers live as long as their series -/

theorem Leads.prev {w : World} {x t : Nat} (h : Leads w x t) :
    x = t ∨ ∃ y n, w.nodes y = some n ∧ n.target = some t := by
  induction h with
  | last => exact .inl rfl
  | next hx hy _ ih =>
    rcases ih with e | h
    · subst e; exact .inr ⟨_, _, hx, hy⟩
    · exact .inr h

theorem receiver_step {w : World} (h : Inv w) {c p : Nat} {n : Node} (hc : w.nodes c = some n)
    (hk : n.kind = .takenStream) (hp : n.parent = some p) (op : Op) (hop : op ≠ .cancel c) :
    (∃ n', (w.step op).nodes c = some n' ∧ n'.kind = .takenStream ∧ n'.parent = some p) ∨
    (w.step op).nodes p = none := by
  have hf := h.net.forest
  by_cases hb : op.builds = true
  · obtain ⟨n', h1, -, h3, h4⟩ := (built_step h hb).old c n hc
    exact .inl ⟨n', h1, h3.2 hk, by rw [h4 hk]; exact hp⟩
  have hset : ∀ (w' : World) x m m', w.nodes x = some m → w'.nodes = (w.set x m').nodes →
      m'.parent = m.parent → (m.kind = .takenStream → m'.kind = .takenStream) →
      ∃ n', w'.nodes c = some n' ∧ n'.kind = .takenStream ∧ n'.parent = some p := by
    intro w' x m m' hx hw hpm hkm
    rw [hw]
    by_cases e : c = x
    · subst e
      rw [hc] at hx; cases hx
      exact ⟨m', set_self _ _ _, hkm hk, by rw [hpm]; exact hp⟩
    · exact ⟨n, by rw [set_other _ _ e]; exact hc, hk, hp⟩
  have hdes : ∀ (w' : World) x, x ≠ c → w'.nodes = (w.despawn x).nodes →
      (∃ n', w'.nodes c = some n' ∧ n'.kind = .takenStream ∧ n'.parent = some p) ∨
      w'.nodes p = none := by
    intro w' x hxc hw
    rw [hw]
    by_cases hi : Inside w x c
    · right
      cases hi with
      | self => exact absurd rfl hxc
      | child hy hp' hi' =>
        rw [hc] at hy; cases hy
        rw [hp] at hp'; cases hp'
        exact despawn_in hf hi'
    · left
      exact ⟨n, by rw [despawn_out hf hi]; exact hc, hk, hp⟩
  cases op with
  | exec =>
    simp only [World.step]
    rcases exec_cases w with ⟨-, he⟩ | ⟨x, rest, hq, hcase⟩
    · rw [he]; exact .inl ⟨n, hc, hk, hp⟩
    · cases hcase with
      | skip he => rw [he]; exact .inl ⟨n, hc, hk, hp⟩
      | start m s v more hx hi hmk he =>
        exact .inl (hset _ x m { m with inputs := more, kind := .busy s } hx (by rw [he]) rfl
          (by rw [hmk]; simp))
      | item m s v more hx hi hmk he =>
        exact .inl (hset _ x m { m with inputs := more } hx (by rw [he]) rfl id)
      | keep m s v e more hx hi hmk he =>
        exact .inl (hset _ x m { m with inputs := more } hx (by rw [he]) rfl id)
      | sent m s v more hx hi hmk hn =>
        refine hdes _ x ?_ hn
        intro e
        subst e
        rw [hc] at hx; cases hx
        rw [hk] at hmk; cases hmk
      | gone m s v more hx hi hmk hn =>
        refine hdes _ x ?_ hn
        intro e
        subst e
        rw [hc] at hx; cases hx
        rw [hk] at hmk
        rcases hmk with hmk | ⟨e, hmk⟩ | ⟨e, hmk⟩ <;> cases hmk
  | emit x ty v =>
    left
    show ∃ n', (w.emit x ty v).nodes c = _ ∧ _
    unfold World.emit
    cases w.nodes x with
    | none => exact ⟨n, hc, hk, hp⟩
    | some m =>
      dsimp only
      cases m.kind with
      | busy s =>
        dsimp only
        cases m.streams.find? fun e => e.1 = ty with
        | none => exact ⟨n, hc, hk, hp⟩
        | some d =>
          dsimp only
          have g := give_given w d.2 s v
          by_cases e : c = d.2
          · rw [← e] at g ⊢
            obtain ⟨i, hi⟩ := g.self n hc
            exact ⟨_, hi, hk, hp⟩
          · exact ⟨n, by rw [g.other c e]; exact hc, hk, hp⟩
      | _ => exact ⟨n, hc, hk, hp⟩
  | respond x v =>
    left
    show ∃ n', (w.respond x v).nodes c = _ ∧ _
    unfold World.respond
    cases hx : w.nodes x with
    | none => exact ⟨n, hc, hk, hp⟩
    | some m =>
      dsimp only
      split
      · next s t hmk ht =>
        have g := give_given (w.set x { m with kind := .done }) t s v
        have hcx : c ≠ x := by
          intro e
          subst e
          rw [hc] at hx; cases hx
          rw [hk] at hmk; cases hmk
        have hc' : (w.set x { m with kind := .done }).nodes c = some n := by
          rw [set_other _ _ hcx]; exact hc
        by_cases e : c = t
        · subst e
          obtain ⟨i, hi⟩ := g.self n hc'
          exact ⟨_, hi, hk, hp⟩
        · exact ⟨n, by rw [g.other c e]; exact hc', hk, hp⟩
      · exact ⟨n, hc, hk, hp⟩
  | cancel x =>
    simp only [World.step]
    cases cancel_cases hf x with
    | none hn => exact .inl ⟨n, by rw [hn]; exact hc, hk, hp⟩
    | some t m q hx hcan hl ht hn =>
      refine hdes _ t ?_ hn
      intro e
      subst e
      rcases hl.prev with e | ⟨y, q', hy, hty⟩
      · subst e; exact hop rfl
      · obtain ⟨r, hr, hrl⟩ := target_nonleaf h.net hy hty
        rw [hc] at hr; cases hr
        rw [hk] at hrl; cases hrl
  | breaks x =>
    left
    show ∃ n', (w.breaks x).nodes c = _ ∧ _
    unfold World.breaks
    cases hx : w.nodes x with
    | none => exact ⟨n, hc, hk, hp⟩
    | some m =>
      dsimp only
      split
      · next s hmk =>
        exact hset { w.set x { m with kind := .done } with errors := w.errors + 1 } x m
          { m with kind := .done } hx rfl rfl (by rw [hmk]; simp)
      · exact ⟨n, hc, hk, hp⟩
  | _ => simp [Op.builds] at hb

end Verif.Series
