import Verif.Task.Lemmas
set_option linter.unusedSimpArgs false
set_option linter.unusedVariables false
set_option linter.unnecessarySimpa false
namespace Verif.Task

local notation "ownE" => own Ent.id
local notation "ownA" => own Active.id
local notation "ownC" => own Closure.id

/-- Nothing happens to the task `j` between `v` and `v'`. -/
structure Same (v v' : Node) (j : Nat) : Prop where
  ents : ownE j v'.ents = ownE j v.ents
  active : ownA j v'.active = ownA j v.active
  closures : ownC j v'.closures = ownC j v.closures

theorem Inv.upd {v v' : Node} (h : Inv v) (id : Nat) (hid : id < v.next) (hn : v'.next = v.next)
    (l : List Rec) (hl : v'.log = v.log ++ l)
    (ho : ∀ j, j ≠ id → Same v v' j ∧ ownL j l = [] ∧ .stopping j ∉ l)
    (hp : ∃ s b, Phase v' id s b) : Inv v' := by
  constructor
  · intro j hj
    rw [hn] at hj
    by_cases hji : j = id
    · subst hji; exact hp
    · obtain ⟨s, b, hph⟩ := h.old j hj
      obtain ⟨hs, hL, _⟩ := ho j hji
      exact ⟨s, b, hph.frame hs.ents hs.active hs.closures hl hL⟩
  · intro j hj
    rw [hn] at hj
    have hji : j ≠ id := by omega
    obtain ⟨hs, hL, hst⟩ := ho j hji
    obtain ⟨⟨h1, h2, h3, h4⟩, h5⟩ := h.new j hj
    refine ⟨⟨hs.ents.trans h1, hs.active.trans h2, hs.closures.trans h3, ?_⟩, ?_⟩
    · rw [hl, ownL, List.filter_append]
      simp only [ownL] at hL h4
      rw [hL, h4]; rfl
    · rw [hl, List.mem_append]
      rintro (h | h)
      · exact h5 h
      · exact hst h

theorem find_ent {v : Node} {id : Nat} {E : List Ent} (h : ownE id v.ents = E) :
    v.ents.find? (fun e => e.id == id) = E.head? := by rw [own_find, h]

theorem lt_of_find {v : Node} (h : Inv v) {id : Nat} {e : Ent}
    (hf : v.ents.find? (fun e => e.id == id) = some e) : id < v.next := by
  apply Nat.lt_of_not_le
  intro hle
  rw [find_ent (h.new id hle).1.1] at hf
  cases hf

theorem start_inv {v : Node} (h : Inv v) (s : Nat) (b : Bool) : Inv (v.start s b) := by
  constructor
  · intro j hj
    simp only [Node.start] at hj
    by_cases hjn : j = v.next
    · subst hjn
      obtain ⟨⟨h1, h2, h3, h4⟩, _⟩ := h.new v.next (Nat.le_refl _)
      refine ⟨s, b, .running ⟨?_, ?_, h3, ?_⟩⟩
      · simp [Node.start, own_append, h1, own_single]
      · simp [Node.start, own_append, h2, own_single]
      · simp [Node.start, h4, about]
    · obtain ⟨s', b', hp⟩ := h.old j (by omega)
      refine ⟨s', b', hp.frame ?_ ?_ rfl (l := [.started v.next s b]) rfl ?_⟩
      · simp [Node.start, own_append, own_single_ne (f := Ent.id) (x := ⟨v.next, s, _⟩) (Ne.symm hjn)]
      · simp [Node.start, own_append, own_single_ne (f := Active.id) (x := ⟨v.next, s, _⟩) (Ne.symm hjn)]
      · simp [about, Ne.symm hjn]
  · intro j hj
    simp only [Node.start] at hj
    have hjn : v.next ≠ j := by omega
    obtain ⟨⟨h1, h2, h3, h4⟩, h5⟩ := h.new j (by omega)
    refine ⟨⟨?_, ?_, h3, ?_⟩, ?_⟩
    · simp [Node.start, own_append, h1, own_single_ne (f := Ent.id) (x := ⟨v.next, s, _⟩) hjn]
    · simp [Node.start, own_append, h2, own_single_ne (f := Active.id) (x := ⟨v.next, s, _⟩) hjn]
    · simp [Node.start, h4, about, hjn]
    · simp [Node.start, h5]

/-- What `cleanup_task` does to the projections. -/
theorem cleanupTask_self {v : Node} {id : Nat} (h : Quiet v id) (b : Bool) (c : Option Nat) :
    ownE id (v.cleanupTask id b c).ents = [] ∧ ownA id (v.cleanupTask id b c).active = [] ∧
      (v.cleanupTask id b c).closures = v.closures ∧ (v.cleanupTask id b c).next = v.next ∧
      (v.cleanupTask id b c).log = v.log ++ unblocks id b ++ notifs v.active id c := by
  rw [cleanupTask_quiet h]
  exact ⟨own_remove_self _ _, own_remove_self _ _, rfl, rfl, rfl⟩

theorem cleanupTask_same {v : Node} {id : Nat} (h : Quiet v id) (b : Bool) (c : Option Nat) {j : Nat}
    (hj : j ≠ id) : Same v (v.cleanupTask id b c) j := by
  rw [cleanupTask_quiet h]
  exact ⟨own_remove_ne hj _, own_remove_ne hj _, rfl⟩

theorem stopping_not_unblocks (j id b) : Rec.stopping j ∉ unblocks id b := by
  cases b <;> simp [unblocks]

theorem stopping_not_notifs (j a id c) : Rec.stopping j ∉ notifs a id c := by
  cases c with
  | none => simp [notifs]
  | some c => unfold notifs; split <;> simp

theorem Same.trans {v w x : Node} {j : Nat} (h : Same v w j) (h' : Same w x j) : Same v x j :=
  ⟨h'.ents.trans h.ents, h'.active.trans h.active, h'.closures.trans h.closures⟩

theorem ready_inv {v : Node} (h : Inv v) (id : Nat) : Inv (v.ready id) := by
  unfold Node.ready
  split
  · exact h
  · rename_i e hf
    have hid := lt_of_find h hf
    split
    · exact h
    · rename_i op hop
      split
      · exact h
      · rename_i hcl
        split
        · rename_i htask
          obtain ⟨s, b, hp⟩ := h.old id hid
          cases hp with
          | running hP =>
            obtain ⟨h1, h2, h3, h4⟩ := hP
            rw [find_ent h1] at hf
            simp only [List.head?_cons, Option.some.injEq] at hf
            subst hf
            simp only [Option.some.injEq] at hop
            subst hop
            simp only
            generalize hv1 : ({ v with
              ents := v.ents.map fun e =>
                if e.id = id then { e with op := some ⟨false, false, none, true⟩ } else e
              log := v.log ++ [.ended id, .responded id] } : Node) = v1
            have hE1 : ownE id v1.ents = [⟨id, s, some ⟨false, false, none, true⟩⟩] := by
              subst hv1
              simp only
              rw [own_map (by intro x; split <;> rfl), h1]
              simp
            have hq : Quiet v1 id := by
              intro e he op hop
              rw [hE1] at he
              simp only [List.mem_singleton] at he
              subst he
              simp only [Option.some.injEq] at hop
              subst hop
              rfl
            obtain ⟨g1, g2, g3, g4, g5⟩ := cleanupTask_self hq b none
            have gl : v1.log = v.log ++ [.ended id, .responded id] := by subst hv1; rfl
            refine h.upd id hid (by rw [g4]; subst hv1; rfl) ([.ended id, .responded id] ++
              unblocks id b) (by rw [g5, gl]; simp [notifs]) ?_ ⟨s, b, .responded ⟨g1, g2, ?_, ?_⟩⟩
            · intro j hj
              refine ⟨?_, ?_, ?_⟩
              · refine Same.trans ?_ (cleanupTask_same hq b none hj)
                subst hv1
                refine ⟨own_map_ne hj ?_ ?_ _, rfl, rfl⟩
                · intro x; split <;> rfl
                · intro x hx; simp [hx]
              · rw [ownL, List.filter_append, ← ownL, ← ownL, ownL_unblocks_ne hj]
                simp [about, Ne.symm hj]
              · simp only [List.mem_append, not_or]
                exact ⟨by simp, stopping_not_unblocks _ _ _⟩
            · rw [g3]; subst hv1; exact h3
            · rw [g5, gl]
              simp only [notifs, List.append_nil, ownL, List.filter_append, h4]
              have := ownL_unblocks_self id b
              simp only [ownL] at this
              rw [this]
              simp [about]
          | cleaning c hP hb =>
            rw [find_ent hP.1] at hf
            simp only [List.head?_cons, Option.some.injEq] at hf
            subst hf
            simp only [Option.some.injEq] at hop
            subst hop
            simp at hcl
          | cleaningBare c x E hE hP hb hs =>
            rw [find_ent hP.1] at hf
            rcases hE with rfl | rfl
            · simp only [List.head?_cons, Option.some.injEq] at hf
              subst hf; cases hop
            · cases hf
          | stopping x E hE hP hs =>
            rw [find_ent hP.1] at hf
            rcases hE with rfl | rfl
            · simp only [List.head?_cons, Option.some.injEq] at hf
              subst hf; cases hop
            · cases hf
          | ghost c hP hb => rw [find_ent hP.1] at hf; cases hf
          | responded hP => rw [find_ent hP.1] at hf; cases hf
          | disposed hP => rw [find_ent hP.1] at hf; cases hf
          | cleaned c hP hb => rw [find_ent hP.1] at hf; cases hf
        · exact h

theorem stop_inv {v : Node} (h : Inv v) (id : Nat) : Inv (v.stop id) := by
  unfold Node.stop
  split
  · exact h
  · rename_i e hf
    have hid := lt_of_find h hf
    split
    · exact h
    · rename_i op hop
      simp only
      have hsame : ∀ j, j ≠ id → ownE j (v.ents.map fun e =>
          if e.id = id then { e with op := none } else e) = ownE j v.ents := by
        intro j hj
        refine own_map_ne hj ?_ ?_ _
        · intro x; split <;> rfl
        · intro x hx; simp [hx]
      have hself : ∀ o, ownE id v.ents = [⟨id, e.session, o⟩] → ownE id (v.ents.map fun e =>
          if e.id = id then { e with op := none } else e) = [⟨id, e.session, none⟩] := by
        intro o ho
        rw [own_map (by intro x; split <;> rfl), ho]
        simp
      obtain ⟨s, b, hp⟩ := h.old id hid
      cases hp with
      | running hP =>
        obtain ⟨h1, h2, h3, h4⟩ := hP
        rw [find_ent h1] at hf
        simp only [List.head?_cons, Option.some.injEq] at hf
        subst hf
        simp only [Option.some.injEq] at hop
        subst hop
        simp only [Node.dropOp, Bool.false_eq_true, if_false]
        refine h.upd id hid rfl [.stopping id] rfl ?_ ⟨s, b, .stopping none _ (.inl rfl)
          ⟨hself _ h1, h2, ?_, ?_⟩ (by simp)⟩
        · intro j hj
          exact ⟨⟨hsame j hj, rfl, by simp [own_append, own_single_ne (f := Closure.id)
            (x := ⟨id, s, b, none, true⟩) (Ne.symm hj)]⟩, by simp [about], by simp [hj]⟩
        · simp [own_append, h3, own_single]
        · simp [h4, about]
      | cleaning c hP hb =>
        obtain ⟨h1, h2, h3, h4⟩ := hP
        rw [find_ent h1] at hf
        simp only [List.head?_cons, Option.some.injEq] at hf
        subst hf
        simp only [Option.some.injEq] at hop
        subst hop
        simp only [Node.dropOp, if_true]
        refine h.upd id hid rfl [.stopping id] rfl ?_ ⟨s, b, .cleaningBare c (some c) _ (.inl rfl)
          ⟨hself _ h1, h2, h3, ?_⟩ (StartedBefore.append hb _) (by simp)⟩
        · intro j hj
          exact ⟨⟨hsame j hj, rfl, rfl⟩, by simp [about], by simp [hj]⟩
        · simp [h4, about]
      | cleaningBare c x E hE hP hb hs =>
        rw [find_ent hP.1] at hf
        rcases hE with rfl | rfl
        · simp only [List.head?_cons, Option.some.injEq] at hf
          subst hf; cases hop
        · cases hf
      | stopping x E hE hP hs =>
        rw [find_ent hP.1] at hf
        rcases hE with rfl | rfl
        · simp only [List.head?_cons, Option.some.injEq] at hf
          subst hf; cases hop
        · cases hf
      | ghost c hP hb => rw [find_ent hP.1] at hf; cases hf
      | responded hP => rw [find_ent hP.1] at hf; cases hf
      | disposed hP => rw [find_ent hP.1] at hf; cases hf
      | cleaned c hP hb => rw [find_ent hP.1] at hf; cases hf

theorem despawn_inv {v : Node} (h : Inv v) (id : Nat) (hid : id < v.next) :
    Inv (({ v with log := v.log ++ [Rec.stopping id] } : Node).despawn id) := by
  unfold Node.despawn
  have hsame : ∀ j, j ≠ id → ownE j (v.ents.filter (fun e => e.id != id)) = ownE j v.ents :=
    fun j hj => own_remove_ne hj _
  have hlog : ∀ j, ownL j [Rec.stopping id] = [] := by intro j; simp [about]
  obtain ⟨s, b, hp⟩ := h.old id hid
  -- nothing to despawn
  have hnone : ∀ {A C L}, Proj v id [] A C L → Inv { v with log := v.log ++ [Rec.stopping id] } := by
    intro A C L hP
    refine h.upd id hid rfl [.stopping id] rfl (fun j hj => ⟨⟨rfl, rfl, rfl⟩, hlog j, by simp [hj]⟩)
      ⟨s, b, hp.frame rfl rfl rfl (l := [.stopping id]) rfl (hlog id)⟩
  cases hp with
  | running hP =>
    obtain ⟨h1, h2, h3, h4⟩ := hP
    simp only [find_ent h1, List.head?_cons, Node.dropOp, Bool.false_eq_true, if_false]
    refine h.upd id hid rfl [.stopping id] rfl ?_ ⟨s, b, .stopping none [] (.inr rfl)
      ⟨own_remove_self _ _, h2, ?_, ?_⟩ (by simp)⟩
    · intro j hj
      exact ⟨⟨hsame j hj, rfl, by simp [own_append, own_single_ne (f := Closure.id)
        (x := ⟨id, s, b, none, true⟩) (Ne.symm hj)]⟩, by simp [about], by simp [hj]⟩
    · simp [own_append, h3, own_single]
    · simp [h4, about]
  | cleaning c hP hb =>
    obtain ⟨h1, h2, h3, h4⟩ := hP
    simp only [find_ent h1, List.head?_cons, Node.dropOp, if_true]
    refine h.upd id hid rfl [.stopping id] rfl ?_ ⟨s, b, .cleaningBare c (some c) [] (.inr rfl)
      ⟨own_remove_self _ _, h2, h3, ?_⟩ (StartedBefore.append hb _) (by simp)⟩
    · intro j hj
      exact ⟨⟨hsame j hj, rfl, rfl⟩, by simp [about], by simp [hj]⟩
    · simp [h4, about]
  | cleaningBare c x E hE hP hb hs =>
    obtain ⟨h1, h2, h3, h4⟩ := hP
    rcases hE with rfl | rfl
    · simp only [find_ent h1, List.head?_cons]
      refine h.upd id hid rfl [.stopping id] rfl ?_ ⟨s, b, .cleaningBare c x [] (.inr rfl)
        ⟨own_remove_self _ _, h2, h3, ?_⟩ (StartedBefore.append hb _) (by simp)⟩
      · intro j hj
        exact ⟨⟨hsame j hj, rfl, rfl⟩, by simp [about], by simp [hj]⟩
      · simp [h4, about]
    · simp only [find_ent h1, List.head?_nil]
      exact hnone ⟨h1, h2, h3, h4⟩
  | stopping x E hE hP hs =>
    obtain ⟨h1, h2, h3, h4⟩ := hP
    rcases hE with rfl | rfl
    · simp only [find_ent h1, List.head?_cons]
      refine h.upd id hid rfl [.stopping id] rfl ?_ ⟨s, b, .stopping x [] (.inr rfl)
        ⟨own_remove_self _ _, h2, h3, ?_⟩ (by simp)⟩
      · intro j hj
        exact ⟨⟨hsame j hj, rfl, rfl⟩, by simp [about], by simp [hj]⟩
      · simp [h4, about]
    · simp only [find_ent h1, List.head?_nil]
      exact hnone ⟨h1, h2, h3, h4⟩
  | ghost c hP hb => simp only [find_ent hP.1, List.head?_nil]; exact hnone hP
  | responded hP => simp only [find_ent hP.1, List.head?_nil]; exact hnone hP
  | disposed hP => simp only [find_ent hP.1, List.head?_nil]; exact hnone hP
  | cleaned c hP hb => simp only [find_ent hP.1, List.head?_nil]; exact hnone hP

/-- Each closure belongs to a task whose phase says so. -/
theorem closure_phase {v : Node} (h : Inv v) {cl : Closure} (hcl : cl ∈ v.closures) :
    cl.id < v.next ∧ ∃ s b, Phase v cl.id s b ∧ ownC cl.id v.closures = [cl] ∧
      Quiet v cl.id ∧ ownL cl.id v.log = [.started cl.id s b] ∧ cl.blocker = b ∧ cl.session = s ∧
      (cl.dispose = true ∨ ∃ c, cl.cleaned = some c ∧ cl.dispose = false ∧ Begun v cl.id s c) := by
  have hmem : cl ∈ ownC cl.id v.closures := mem_own.mpr ⟨hcl, rfl⟩
  have hid : cl.id < v.next := by
    apply Nat.lt_of_not_le
    intro hle
    rw [(h.new _ hle).1.2.2.1] at hmem
    cases hmem
  refine ⟨hid, ?_⟩
  obtain ⟨s, b, hp⟩ := h.old _ hid
  refine ⟨s, b, hp, ?_⟩
  cases hp with
  | running hP => rw [hP.2.2.1] at hmem; cases hmem
  | cleaning c hP hb =>
    obtain ⟨h1, h2, h3, h4⟩ := hP
    rw [h3] at hmem ⊢
    simp only [List.mem_singleton] at hmem
    refine ⟨by rw [← hmem], ?_, h4, by rw [hmem], by rw [hmem], .inr ⟨c, by rw [hmem], by rw [hmem], hb⟩⟩
    intro e he op hop
    rw [h1] at he
    simp only [List.mem_singleton] at he
    subst he
    simp only [Option.some.injEq] at hop
    subst hop
    rfl
  | cleaningBare c x E hE hP hb hs =>
    obtain ⟨h1, h2, h3, h4⟩ := hP
    rw [h3] at hmem ⊢
    simp only [List.mem_singleton] at hmem
    exact ⟨by rw [← hmem], Phase.no_op_quiet h1 hE, h4, by rw [hmem], by rw [hmem],
      .inr ⟨c, by rw [hmem], by rw [hmem], hb⟩⟩
  | stopping x E hE hP hs =>
    obtain ⟨h1, h2, h3, h4⟩ := hP
    rw [h3] at hmem ⊢
    simp only [List.mem_singleton] at hmem
    exact ⟨by rw [← hmem], Phase.no_op_quiet h1 hE, h4, by rw [hmem], by rw [hmem],
      .inl (by rw [hmem])⟩
  | ghost c hP hb =>
    obtain ⟨h1, h2, h3, h4⟩ := hP
    rw [h3] at hmem ⊢
    simp only [List.mem_singleton] at hmem
    exact ⟨by rw [← hmem], Phase.no_op_quiet (s := 0) h1 (.inr rfl), h4, by rw [hmem], by rw [hmem],
      .inr ⟨c, by rw [hmem], by rw [hmem], hb⟩⟩
  | responded hP => rw [hP.2.2.1] at hmem; cases hmem
  | disposed hP => rw [hP.2.2.1] at hmem; cases hmem
  | cleaned c hP hb => rw [hP.2.2.1] at hmem; cases hmem

theorem done_inv {v : Node} (h : Inv v) (k : Nat) : Inv (v.done k) := by
  unfold Node.done
  split
  · exact h
  · rename_i cl hk
    have hcl : cl ∈ v.closures := List.mem_of_getElem? hk
    obtain ⟨hid, s, b, hp, hC, hq, hL, hbl, hs, hd⟩ := closure_phase h hcl
    simp only
    generalize hv1 : ({ v with
      closures := v.closures.eraseIdx k
      log := v.log ++ [.ended cl.id] } : Node) = v1
    have hq1 : Quiet v1 cl.id := by subst hv1; exact hq
    have hlog1 : v1.log = v.log ++ [.ended cl.id] := by subst hv1; rfl
    have hn1 : v1.next = v.next := by subst hv1; rfl
    have hC1 : ownC cl.id v1.closures = [] := by subst hv1; exact own_eraseIdx_self hk hC
    have hs1 : ∀ j, j ≠ cl.id → Same v v1 j := by
      intro j hj
      subst hv1
      exact ⟨rfl, rfl, own_eraseIdx_ne hk hj⟩
    obtain ⟨g1, g2, g3, g4, g5⟩ := cleanupTask_self hq1 cl.blocker cl.cleaned
    have hs2 : ∀ j, j ≠ cl.id → Same v (v1.cleanupTask cl.id cl.blocker cl.cleaned) j :=
      fun j hj => (hs1 j hj).trans (cleanupTask_same hq1 _ _ hj)
    have hLs := ownL_unblocks_self cl.id cl.blocker
    have hLn := ownL_notifs cl.id v1.active cl.id cl.cleaned
    simp only [ownL] at hLs hLn hL
    split
    · rename_i hdis
      refine h.upd cl.id hid (by rw [← hn1, ← g4]) ([.ended cl.id] ++ (unblocks cl.id cl.blocker ++
        notifs v1.active cl.id cl.cleaned) ++ [.disposed cl.id])
        (by simp only [g5, hlog1]; simp) ?_ ⟨s, b, .disposed ⟨g1, g2, ?_, ?_⟩⟩
      · intro j hj
        refine ⟨⟨(hs2 j hj).ents, (hs2 j hj).active, (hs2 j hj).closures⟩, ?_, ?_⟩
        · have h1 := ownL_unblocks_ne hj cl.blocker
          have h2 := ownL_notifs j v1.active cl.id cl.cleaned
          simp only [ownL] at h1 h2
          simp only [ownL, List.filter_append, h1, h2]
          simp [about, Ne.symm hj]
        · simp only [List.mem_append, not_or]
          exact ⟨⟨by simp, stopping_not_unblocks _ _ _, stopping_not_notifs _ _ _ _⟩, by simp⟩
      · simp only [g3]; exact hC1
      · simp only [g5, hlog1, ownL, List.filter_append, hL, hLs, hLn]
        simp [about, hbl]
    · rename_i hdis
      rcases hd with hd | ⟨c, hc, hdf, hb⟩
      · exact absurd hd hdis
      refine h.upd cl.id hid (by rw [← hn1, ← g4]) ([.ended cl.id] ++ (unblocks cl.id cl.blocker ++
        notifs v1.active cl.id cl.cleaned))
        (by simp only [g5, hlog1]; simp) ?_ ⟨s, b, .cleaned c ⟨g1, g2, ?_, ?_⟩ ?_⟩
      · intro j hj
        refine ⟨⟨(hs2 j hj).ents, (hs2 j hj).active, (hs2 j hj).closures⟩, ?_, ?_⟩
        · have h1 := ownL_unblocks_ne hj cl.blocker
          have h2 := ownL_notifs j v1.active cl.id cl.cleaned
          simp only [ownL] at h1 h2
          simp only [ownL, List.filter_append, h1, h2]
          simp [about, Ne.symm hj]
        · simp only [List.mem_append, not_or]
          exact ⟨by simp, stopping_not_unblocks _ _ _, stopping_not_notifs _ _ _ _⟩
      · simp only [g3]; exact hC1
      · simp only [g5, hlog1, ownL, List.filter_append, hL, hLs, hLn]
        simp [about, hbl]
      · unfold Begun
        rw [g5, hlog1]
        rw [List.append_assoc, List.append_assoc]
        exact StartedBefore.append hb _

/-! ### The cleanup of a session -/

/-- A task of the session that is marked for the cleanup `c` but not yet reached. -/
inductive Mid (v : Node) (id s : Nat) (b : Bool) (c : Nat) : Prop where
  | running (h : Proj v id [⟨id, s, some ⟨b, true, none, false⟩⟩] [⟨id, s, some c⟩] []
      [.started id s b])
  | cleaning (c' : Nat) (h : Proj v id [⟨id, s, some ⟨false, false, some c', true⟩⟩]
      [⟨id, s, some c⟩] [⟨id, s, b, some c', false⟩] [.started id s b]) (hb : Begun v id s c')
  | bare (hp : Phase v id s b) (hE : ∀ e ∈ ownE id v.ents, e.op = none)
      (hA : ownA id v.active = [⟨id, s, some c⟩]) (hs : .stopping id ∈ v.log)
      (hL : ownL id v.log = [.started id s b])

theorem Mid.frame {v v' : Node} {id s c : Nat} {b : Bool} (h : Mid v id s b c)
    (hs : Same v v' id) {l : List Rec} (hl : v'.log = v.log ++ l) (hL : ownL id l = []) :
    Mid v' id s b c := by
  have hL' : ∀ {L}, ownL id v.log = L → ownL id v'.log = L := by
    intro L h4
    rw [hl, ownL, List.filter_append]
    simp only [ownL] at hL h4
    rw [hL, List.append_nil, h4]
  have hP : ∀ {E A C L}, Proj v id E A C L → Proj v' id E A C L := by
    rintro E A C L ⟨h1, h2, h3, h4⟩
    exact ⟨hs.ents.trans h1, hs.active.trans h2, hs.closures.trans h3, hL' h4⟩
  cases h with
  | running h => exact .running (hP h)
  | cleaning c' h hb =>
    refine .cleaning c' (hP h) ?_
    unfold Begun; rw [hl]; exact StartedBefore.append hb l
  | bare hp hE hA hst hL4 =>
    refine .bare (hp.frame hs.ents hs.active hs.closures hl hL) ?_ (hs.active.trans hA) ?_ (hL' hL4)
    · rw [hs.ents]; exact hE
    · rw [hl]; exact List.mem_append_left _ hst

/-- The state while `ActiveTasksStorage::cleanup` works on `todo`. -/
structure FoldInv (v : Node) (c s : Nat) (todo : List Nat) : Prop where
  nodup : todo.Nodup
  mid : ∀ id ∈ todo, id < v.next ∧ ∃ b, Mid v id s b c ∧ Begun v id s c
  old : ∀ id, id < v.next → id ∉ todo → ∃ s b, Phase v id s b
  new : ∀ id, v.next ≤ id → Proj v id [] [] [] [] ∧ .stopping id ∉ v.log

/-- What `OperateTask::cleanup` does in the three cases. -/
theorem cleanTask_cases {v : Node} {id s c : Nat} {b : Bool} (h : Mid v id s b c)
    (hb : Begun v id s c) :
    Phase (v.cleanTask c id) id s b ∧ (∀ j, j ≠ id → Same v (v.cleanTask c id) j) ∧
    (v.cleanTask c id).next = v.next ∧
    ((ownE id v.ents = [⟨id, s, some ⟨b, true, none, false⟩⟩] ∧
        (v.cleanTask c id).active = v.active ∧
        (v.cleanTask c id).closures = v.closures ++ [⟨id, s, b, some c, false⟩] ∧
        (v.cleanTask c id).log = v.log) ∨
      ((∃ c', ownE id v.ents = [⟨id, s, some ⟨false, false, some c', true⟩⟩]) ∧
        (v.cleanTask c id).active = v.active.filter (fun a => a.id != id) ∧
        (v.cleanTask c id).closures = v.closures ∧
        (v.cleanTask c id).log = v.log ++ notifs v.active id (some c)) ∨
      (v.cleanTask c id = v ∧ .stopping id ∈ v.log ∧ ownL id v.log = [.started id s b])) := by
  have hsame : ∀ (o : Op) j, j ≠ id → ownE j (v.ents.map fun e =>
      if e.id = id then { e with op := some o } else e) = ownE j v.ents := by
    intro o j hj
    refine own_map_ne hj ?_ ?_ _
    · intro x; split <;> rfl
    · intro x hx; simp [hx]
  have hself : ∀ (o : Op) o', ownE id v.ents = [⟨id, s, o'⟩] → ownE id (v.ents.map fun e =>
      if e.id = id then { e with op := some o } else e) = [⟨id, s, some o⟩] := by
    intro o o' ho
    rw [own_map (by intro x; split <;> rfl), ho]
    simp
  cases h with
  | running hP =>
    obtain ⟨h1, h2, h3, h4⟩ := hP
    unfold Node.cleanTask
    simp only [find_ent h1, List.head?_cons, if_true]
    refine ⟨.cleaning c ⟨hself _ _ h1, h2, ?_, h4⟩ hb, ?_, trivial, .inl ⟨h1, trivial, trivial, trivial⟩⟩
    · simp [own_append, h3, own_single]
    · intro j hj
      exact ⟨hsame _ j hj, rfl, by simp [own_append, own_single_ne (f := Closure.id)
        (x := ⟨id, s, b, some c, false⟩) (Ne.symm hj)]⟩
  | cleaning c' hP hb' =>
    obtain ⟨h1, h2, h3, h4⟩ := hP
    unfold Node.cleanTask
    simp only [find_ent h1, List.head?_cons, Bool.false_eq_true, if_false]
    generalize hv1 : ({ v with
      ents := v.ents.map fun e =>
        if e.id = id then { e with op := some ⟨false, false, some c, true⟩ } else e } : Node) = v1
    have hE1 : ownE id v1.ents = [⟨id, s, some ⟨false, false, some c, true⟩⟩] := by
      subst hv1; exact hself _ _ h1
    have hq : Quiet v1 id := by
      intro e he op hop
      rw [hE1] at he
      simp only [List.mem_singleton] at he
      subst he
      simp only [Option.some.injEq] at hop
      subst hop
      rfl
    have ha : v1.active = v.active := by subst hv1; rfl
    have hl : v1.log = v.log := by subst hv1; rfl
    have hc : v1.closures = v.closures := by subst hv1; rfl
    obtain ⟨g1, g2, g3, g4, g5⟩ := cleanupTask_self hq false (some c)
    rw [ha, hl] at g5
    simp only [unblocks, Bool.false_eq_true, if_false, List.append_nil] at g5
    refine ⟨.ghost c' ⟨g1, g2, by rw [g3, hc]; exact h3, ?_⟩ ?_, ?_, ?_, .inr (.inl ⟨⟨c', h1⟩, ?_, ?_, g5⟩)⟩
    · have := ownL_notifs id v.active id (some c)
      simp only [ownL] at h4 this ⊢
      rw [g5, List.filter_append, this, h4]; rfl
    · unfold Begun; rw [g5]; exact StartedBefore.append hb' _
    · intro j hj
      refine Same.trans ?_ (cleanupTask_same hq _ _ hj)
      subst hv1
      exact ⟨hsame _ j hj, rfl, rfl⟩
    · rw [g4]; subst hv1; rfl
    · rw [cleanupTask_quiet hq, ha]
    · rw [g3, hc]
  | bare hp hE hA hst hL =>
    have : v.cleanTask c id = v := by
      unfold Node.cleanTask
      split
      · rfl
      · rename_i e hf
        have : e ∈ ownE id v.ents := by
          rw [own_find] at hf
          exact List.mem_of_mem_head? hf
        rw [hE e this]
    rw [this]
    exact ⟨hp, fun j _ => ⟨rfl, rfl, rfl⟩, rfl, .inr (.inr ⟨rfl, hst, hL⟩)⟩

/-- `OperateTask::cleanup` only adds notifications to the log. -/
theorem cleanTask_log {v : Node} {id s c : Nat} {b : Bool} (h : Mid v id s b c)
    (hb : Begun v id s c) : ∃ l, (v.cleanTask c id).log = v.log ++ l ∧ (∀ r ∈ l, r = .notified c) := by
  obtain ⟨_, _, _, h | h | h⟩ := cleanTask_cases h hb
  · exact ⟨[], by simp [h.2.2.2], by simp⟩
  · refine ⟨_, h.2.2.2, ?_⟩
    simp only [notifs]
    split <;> simp
  · exact ⟨[], by simp [h.1], by simp⟩

theorem ownL_notified {l : List Rec} {c : Nat} (h : ∀ r ∈ l, r = .notified c) (j : Nat) :
    ownL j l = [] := by
  unfold ownL
  rw [List.filter_eq_nil_iff]
  intro r hr
  rw [h r hr]
  simp [about]

theorem cleanTask_fold {v : Node} {c s id : Nat} {todo : List Nat}
    (h : FoldInv v c s (id :: todo)) : FoldInv (v.cleanTask c id) c s todo := by
  obtain ⟨hid, b, hm, hb⟩ := h.mid id List.mem_cons_self
  obtain ⟨hp, hs, hn, _⟩ := cleanTask_cases hm hb
  obtain ⟨l, hl, hln⟩ := cleanTask_log hm hb
  have hnd := List.nodup_cons.mp h.nodup
  constructor
  · exact hnd.2
  · intro j hj
    have hji : j ≠ id := fun e => hnd.1 (e ▸ hj)
    obtain ⟨hjn, b', hm', hb'⟩ := h.mid j (List.mem_cons_of_mem _ hj)
    refine ⟨by rw [hn]; exact hjn, b', hm'.frame (hs j hji) hl (ownL_notified hln j), ?_⟩
    unfold Begun; rw [hl]; exact StartedBefore.append hb' l
  · intro j hj hjt
    rw [hn] at hj
    by_cases hji : j = id
    · subst hji; exact ⟨s, b, hp⟩
    · obtain ⟨s', b', hp'⟩ := h.old j hj (by simp [hji, hjt])
      exact ⟨s', b', hp'.frame (hs j hji).ents (hs j hji).active (hs j hji).closures hl
        (ownL_notified hln j)⟩
  · intro j hj
    rw [hn] at hj
    have hji : j ≠ id := by omega
    obtain ⟨⟨h1, h2, h3, h4⟩, h5⟩ := h.new j hj
    refine ⟨⟨(hs j hji).ents.trans h1, (hs j hji).active.trans h2, (hs j hji).closures.trans h3, ?_⟩, ?_⟩
    · have := ownL_notified hln j
      simp only [ownL] at this h4 ⊢
      rw [hl, List.filter_append, this, h4]; rfl
    · rw [hl, List.mem_append]
      rintro (h | h)
      · exact h5 h
      · cases hln _ h

theorem fold_inv {c s : Nat} : ∀ (todo : List Nat) (v : Node), FoldInv v c s todo →
    FoldInv (todo.foldl (fun v id => v.cleanTask c id) v) c s []
  | [], v, h => h
  | id :: todo, v, h => by
    rw [List.foldl_cons]
    exact fold_inv todo _ (cleanTask_fold h)

/-- An entry of the list of active tasks belongs to a task that is not over. -/
theorem active_phase {v : Node} (h : Inv v) {a : Active} (ha : a ∈ v.active) :
    a.id < v.next ∧ ∃ b, Phase v a.id a.session b ∧ ownA a.id v.active = [a] ∧
      ownL a.id v.log = [.started a.id a.session b] := by
  have hmem : a ∈ ownA a.id v.active := mem_own.mpr ⟨ha, rfl⟩
  have hid : a.id < v.next := by
    apply Nat.lt_of_not_le
    intro hle
    rw [(h.new _ hle).1.2.1] at hmem
    cases hmem
  refine ⟨hid, ?_⟩
  obtain ⟨s, b, hp⟩ := h.old _ hid
  have key : ∀ x, ownA a.id v.active = [⟨a.id, s, x⟩] → ownA a.id v.active = [a] ∧ s = a.session := by
    intro x hx
    rw [hx] at hmem ⊢
    simp only [List.mem_singleton] at hmem
    refine ⟨by rw [← hmem], by rw [hmem]⟩
  cases hp with
  | running hP => obtain ⟨k1, rfl⟩ := key _ hP.2.1; exact ⟨b, .running hP, k1, hP.2.2.2⟩
  | cleaning c hP hb => obtain ⟨k1, rfl⟩ := key _ hP.2.1; exact ⟨b, .cleaning c hP hb, k1, hP.2.2.2⟩
  | cleaningBare c x E hE hP hb hs =>
    obtain ⟨k1, rfl⟩ := key _ hP.2.1
    exact ⟨b, .cleaningBare c x E hE hP hb hs, k1, hP.2.2.2⟩
  | stopping x E hE hP hs =>
    obtain ⟨k1, rfl⟩ := key _ hP.2.1
    exact ⟨b, .stopping x E hE hP hs, k1, hP.2.2.2⟩
  | ghost c hP hb => rw [hP.2.1] at hmem; cases hmem
  | responded hP => rw [hP.2.1] at hmem; cases hmem
  | disposed hP => rw [hP.2.1] at hmem; cases hmem
  | cleaned c hP hb => rw [hP.2.1] at hmem; cases hmem

theorem active_nodup {v : Node} (h : Inv v) : (v.active.map (·.id)).Nodup := by
  have key : ∀ l : List Active, (∀ a ∈ l, ownA a.id l = [a]) → (l.map (·.id)).Nodup := by
    intro l
    induction l with
    | nil => intro _; exact List.nodup_nil
    | cons a l ih =>
      intro hl
      rw [List.map_cons, List.nodup_cons]
      have ha := hl a List.mem_cons_self
      have hnil : ownA a.id l = [] := by simpa [own, List.filter_cons] using ha
      constructor
      · intro hmem
        obtain ⟨a', ha', he⟩ := List.mem_map.mp hmem
        have : a' ∈ ownA a.id l := mem_own.mpr ⟨ha', he⟩
        rw [hnil] at this
        cases this
      · apply ih
        intro a' ha'
        have := hl a' (List.mem_cons_of_mem _ ha')
        by_cases he : a.id = a'.id
        · have h' : a' ∈ ownA a.id l := mem_own.mpr ⟨ha', he.symm⟩
          rw [hnil] at h'
          cases h'
        · simpa [own, List.filter_cons, he] using this
  exact key _ (fun a ha => (active_phase h ha).2.choose_spec.2.1)

/-- The tasks that a cleanup has to deal with. -/
def todoOf (v : Node) (s : Nat) : List Nat := (v.active.filter (fun a => a.session == s)).map (·.id)

/-- The state after the marking of the tasks. -/
def marked (v : Node) (c s : Nat) : Node :=
  { v with
    active := v.active.map fun a => if a.session = s then { a with cleaned := some c } else a
    log := v.log ++ [.begun c s] }

theorem clean_eq (v : Node) (c s : Nat) : v.clean c s =
    if todoOf v s = [] then
      ((todoOf v s).foldl (fun v id => v.cleanTask c id) (marked v c s)).notify c
    else (todoOf v s).foldl (fun v id => v.cleanTask c id) (marked v c s) := rfl

theorem mem_todoOf {v : Node} {s id : Nat} :
    id ∈ todoOf v s ↔ ∃ a ∈ v.active, a.session = s ∧ a.id = id := by
  simp [todoOf, and_assoc]

theorem marked_own {v : Node} {c s id : Nat} {A : List Active} (h : ownA id v.active = A) :
    ownA id (marked v c s).active =
      A.map fun a => if a.session = s then { a with cleaned := some c } else a := by
  unfold marked
  simp only
  rw [own_map (by intro x; split <;> rfl), h]

theorem begun_of_started {v : Node} {id s c : Nat} {b : Bool}
    (h : ownL id v.log = [.started id s b]) : Begun (marked v c s) id s c := by
  refine ⟨v.log, [], rfl, b, ?_⟩
  have : Rec.started id s b ∈ ownL id v.log := by rw [h]; exact List.mem_singleton_self _
  exact (List.mem_filter.mp this).1

theorem marked_fold {v : Node} (h : Inv v) (c s : Nat) :
    FoldInv (marked v c s) c s (todoOf v s) := by
  have hL : ∀ j, ownL j [Rec.begun c s] = [] := by intro j; simp [about]
  have hLm : ∀ {j L}, ownL j v.log = L → ownL j (marked v c s).log = L := by
    intro j L h4
    have := hL j
    simp only [ownL] at this h4 ⊢
    simp only [marked, List.filter_append, this, h4, List.append_nil]
  constructor
  · have := active_nodup h
    unfold todoOf
    exact this.sublist (List.Sublist.map _ List.filter_sublist)
  · intro id hid
    obtain ⟨a, ha, has, hai⟩ := mem_todoOf.mp hid
    obtain ⟨hn, b, hp, hA, hLa⟩ := active_phase h ha
    subst hai
    rw [has] at hp hLa
    refine ⟨hn, b, ?_, begun_of_started hLa⟩
    have hA' : ∀ x, ownA a.id v.active = [⟨a.id, s, x⟩] →
        ownA a.id (marked v c s).active = [⟨a.id, s, some c⟩] := by
      intro x hx
      rw [marked_own hx]
      simp
    cases hp with
    | running hP =>
      obtain ⟨h1, h2, h3, h4⟩ := hP
      exact .running ⟨h1, hA' _ h2, h3, hLm h4⟩
    | cleaning c' hP hb =>
      obtain ⟨h1, h2, h3, h4⟩ := hP
      exact .cleaning c' ⟨h1, hA' _ h2, h3, hLm h4⟩ (StartedBefore.append hb _)
    | cleaningBare c' x E hE hP hb hs =>
      obtain ⟨h1, h2, h3, h4⟩ := hP
      refine .bare (.cleaningBare c' (some c) E hE ⟨h1, hA' _ h2, h3, hLm h4⟩
        (StartedBefore.append hb _) (List.mem_append_left _ hs)) ?_ (hA' _ h2)
        (List.mem_append_left _ hs) (hLm h4)
      intro e he
      have he' : e ∈ ownE a.id v.ents := he
      rw [h1] at he'
      rcases hE with rfl | rfl
      · rw [List.mem_singleton] at he'; rw [he']
      · cases he'
    | stopping x E hE hP hs =>
      obtain ⟨h1, h2, h3, h4⟩ := hP
      refine .bare (.stopping (some c) E hE ⟨h1, hA' _ h2, h3, hLm h4⟩
        (List.mem_append_left _ hs)) ?_ (hA' _ h2)
        (List.mem_append_left _ hs) (hLm h4)
      intro e he
      have he' : e ∈ ownE a.id v.ents := he
      rw [h1] at he'
      rcases hE with rfl | rfl
      · rw [List.mem_singleton] at he'; rw [he']
      · cases he'
    | ghost c' hP hb => rw [hP.2.1] at hA; cases hA
    | responded hP => rw [hP.2.1] at hA; cases hA
    | disposed hP => rw [hP.2.1] at hA; cases hA
    | cleaned c' hP hb => rw [hP.2.1] at hA; cases hA
  · intro id hid hnt
    obtain ⟨s', b, hp⟩ := h.old id hid
    refine ⟨s', b, hp.frame rfl ?_ rfl (l := [.begun c s]) rfl (hL id)⟩
    rw [marked_own rfl]
    conv => rhs; rw [← List.map_id (ownA id v.active)]
    apply List.map_congr_left
    intro a ha
    obtain ⟨ha1, ha2⟩ := mem_own.mp ha
    have : a.session ≠ s := fun e => hnt (mem_todoOf.mpr ⟨a, ha1, e, ha2⟩)
    simp [this]
  · intro id hid
    obtain ⟨⟨h1, h2, h3, h4⟩, h5⟩ := h.new id hid
    refine ⟨⟨h1, ?_, h3, hLm h4⟩, ?_⟩
    · rw [marked_own h2]; rfl
    · simp [marked, h5]

theorem notify_inv {v : Node} (h : Inv v) (c : Nat) : Inv (v.notify c) := by
  have hL : ∀ j, ownL j [Rec.notified c] = [] := by intro j; simp [about]
  constructor
  · intro id hid
    obtain ⟨s, b, hp⟩ := h.old id hid
    exact ⟨s, b, hp.frame rfl rfl rfl (l := [.notified c]) rfl (hL id)⟩
  · intro id hid
    obtain ⟨⟨h1, h2, h3, h4⟩, h5⟩ := h.new id hid
    refine ⟨⟨h1, h2, h3, ?_⟩, by simp [Node.notify, h5]⟩
    have := hL id
    simp only [ownL] at this h4 ⊢
    simp only [Node.notify, List.filter_append, this, h4, List.append_nil]

theorem clean_inv {v : Node} (h : Inv v) (c s : Nat) : Inv (v.clean c s) := by
  have hf := fold_inv _ _ (marked_fold h c s)
  have : Inv ((todoOf v s).foldl (fun v id => v.cleanTask c id) (marked v c s)) :=
    ⟨fun id hid => hf.old id hid (by simp), hf.new⟩
  rw [clean_eq]
  split
  · exact notify_inv this c
  · exact this

theorem step_inv {v : Node} (h : Inv v) (e : Ev) : Inv (step v e) := by
  cases e with
  | start s b => exact start_inv h s b
  | ready id => exact ready_inv h id
  | stop id => exact stop_inv h id
  | despawn id =>
    simp only [step]
    split
    · rename_i hany
      obtain ⟨e, he, hid⟩ := List.any_eq_true.mp hany
      have hid' : e.id = id := by simpa using hid
      apply despawn_inv h
      apply Nat.lt_of_not_le
      intro hle
      have : e ∈ ownE id v.ents := mem_own.mpr ⟨he, hid'⟩
      rw [(h.new id hle).1.1] at this
      cases this
    · exact h
  | clean c s => exact clean_inv h c s
  | done k => exact done_inv h k

theorem fresh_inv : Inv {} :=
  ⟨fun id h => absurd h (Nat.not_lt_zero _), fun id _ => ⟨⟨rfl, rfl, rfl, rfl⟩, by simp⟩⟩

theorem run_inv : ∀ (es : List Ev) {v : Node}, Inv v → Inv (run v es)
  | [], _, h => h
  | e :: es, _, h => run_inv es (step_inv h e)

end Verif.Task
