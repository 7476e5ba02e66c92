import Verif.Task.Runs
set_option linter.unusedSimpArgs false
set_option linter.unusedVariables false
set_option linter.unnecessarySimpa false
namespace Verif.Task

local notation "ownE" => own Ent.id
local notation "ownA" => own Active.id
local notation "ownC" => own Closure.id

/-! ### What the events do, as far as cleanups are concerned -/

theorem ready_cases {v : Node} (h : Inv v) (id : Nat) : v.ready id = v ∨
    ∃ b, ownC id v.closures = [] ∧
      (v.ready id).active = v.active.filter (fun a => a.id != id) ∧
      (v.ready id).closures = v.closures ∧
      (v.ready id).log = v.log ++ ([.ended id, .responded id] ++ unblocks id b) := by
  unfold Node.ready
  split
  · exact .inl rfl
  · rename_i e hf
    have hid := lt_of_find h hf
    split
    · exact .inl rfl
    · rename_i op hop
      split
      · exact .inl rfl
      · rename_i hcl
        split
        · rename_i htask
          right
          obtain ⟨s, b, hp⟩ := h.old id hid
          cases hp with
          | running hP =>
            obtain ⟨h1, h2, h3, h4⟩ := hP
            rw [find_ent h1] at hf
            simp only [List.head?_cons, Option.some.injEq] at hf
            subst hf
            simp only [Option.some.injEq] at hop
            subst hop
            simp only
            refine ⟨b, h3, ?_⟩
            rw [cleanupTask_quiet]
            · exact ⟨rfl, rfl, by simp [notifs]⟩
            · intro e he op hop
              simp only at he
              rw [own_map (by intro x; split <;> rfl), h1] at he
              simp only [List.map_cons, List.map_nil, if_true, List.mem_singleton] at he
              subst he
              simp only [Option.some.injEq] at hop
              subst hop
              rfl
          | cleaning c hP hb =>
            rw [find_ent hP.1] at hf
            simp only [List.head?_cons, Option.some.injEq] at hf
            subst hf
            simp only [Option.some.injEq] at hop
            subst hop
            simp at hcl
          | cleaningBare c x E hE hP hb hs =>
            rw [find_ent hP.1] at hf
            rcases hE with rfl | rfl
            · simp only [List.head?_cons, Option.some.injEq] at hf
              subst hf; cases hop
            · cases hf
          | stopping x E hE hP hs =>
            rw [find_ent hP.1] at hf
            rcases hE with rfl | rfl
            · simp only [List.head?_cons, Option.some.injEq] at hf
              subst hf; cases hop
            · cases hf
          | ghost c hP hb => rw [find_ent hP.1] at hf; cases hf
          | responded hP => rw [find_ent hP.1] at hf; cases hf
          | disposed hP => rw [find_ent hP.1] at hf; cases hf
          | cleaned c hP hb => rw [find_ent hP.1] at hf; cases hf
        · exact .inl rfl

/-- Stopping and despawning add at most one closure, which reports no cleanup. -/
def Halts (v v' : Node) (id : Nat) : Prop :=
  v' = v ∨ (v'.active = v.active ∧ v'.log = v.log ++ [.stopping id] ∧
    (v'.closures = v.closures ∨ ∃ cl, v'.closures = v.closures ++ [cl] ∧ cl.cleaned = none ∧
      ∃ a ∈ v.active, a.id = cl.id))

theorem running_op {v : Node} (h : Inv v) {id : Nat} {e : Ent} {op : Op}
    (hf : v.ents.find? (fun e => e.id == id) = some e) (hop : e.op = some op) :
    op.finished = true ∨ (op.cleaned = none ∧ ∃ a ∈ v.active, a.id = id) := by
  have hid := lt_of_find h hf
  obtain ⟨s, b, hp⟩ := h.old id hid
  cases hp with
  | running hP =>
    rw [find_ent hP.1] at hf
    simp only [List.head?_cons, Option.some.injEq] at hf
    subst hf
    simp only [Option.some.injEq] at hop
    subst hop
    refine .inr ⟨rfl, ⟨id, s, none⟩, ?_, rfl⟩
    have : (⟨id, s, none⟩ : Active) ∈ ownA id v.active := by rw [hP.2.1]; simp
    exact (mem_own.mp this).1
  | cleaning c hP hb =>
    rw [find_ent hP.1] at hf
    simp only [List.head?_cons, Option.some.injEq] at hf
    subst hf
    simp only [Option.some.injEq] at hop
    subst hop
    exact .inl rfl
  | cleaningBare c x E hE hP hb hs =>
    rw [find_ent hP.1] at hf
    rcases hE with rfl | rfl
    · simp only [List.head?_cons, Option.some.injEq] at hf
      subst hf; cases hop
    · cases hf
  | stopping x E hE hP hs =>
    rw [find_ent hP.1] at hf
    rcases hE with rfl | rfl
    · simp only [List.head?_cons, Option.some.injEq] at hf
      subst hf; cases hop
    · cases hf
  | ghost c hP hb => rw [find_ent hP.1] at hf; cases hf
  | responded hP => rw [find_ent hP.1] at hf; cases hf
  | disposed hP => rw [find_ent hP.1] at hf; cases hf
  | cleaned c hP hb => rw [find_ent hP.1] at hf; cases hf

theorem stop_cases {v : Node} (h : Inv v) (id : Nat) : Halts v (v.stop id) id := by
  unfold Node.stop
  split
  · exact .inl rfl
  · rename_i e hf
    split
    · exact .inl rfl
    · rename_i op hop
      right
      simp only [Node.dropOp]
      rcases running_op h hf hop with hfin | ⟨hc, a, ha, hai⟩
      · simp only [hfin, if_true]
        exact ⟨trivial, trivial, .inl trivial⟩
      · split
        · exact ⟨rfl, rfl, .inl rfl⟩
        · exact ⟨rfl, rfl, .inr ⟨_, rfl, hc, a, ha, hai⟩⟩

theorem despawn_cases {v : Node} (h : Inv v) (id : Nat) : Halts v (step v (.despawn id)) id := by
  simp only [step]
  split
  · right
    unfold Node.despawn
    split
    · exact ⟨rfl, rfl, .inl rfl⟩
    · rename_i e hf
      split
      · exact ⟨rfl, rfl, .inl rfl⟩
      · rename_i op hop
        simp only [Node.dropOp]
        rcases running_op h hf hop with hfin | ⟨hc, a, ha, hai⟩
        · simp only [hfin, if_true]
          exact ⟨trivial, trivial, .inl trivial⟩
        · split
          · exact ⟨rfl, rfl, .inl rfl⟩
          · exact ⟨rfl, rfl, .inr ⟨_, rfl, hc, a, ha, hai⟩⟩
  · exact .inl rfl

theorem done_cases {v : Node} (h : Inv v) (k : Nat) : v.done k = v ∨
    ∃ cl, v.closures[k]? = some cl ∧ ownC cl.id v.closures = [cl] ∧
      (v.done k).active = v.active.filter (fun a => a.id != cl.id) ∧
      (v.done k).closures = v.closures.eraseIdx k ∧
      (v.done k).log = v.log ++ ([.ended cl.id] ++ unblocks cl.id cl.blocker ++
        notifs v.active cl.id cl.cleaned ++ if cl.dispose then [.disposed cl.id] else []) := by
  unfold Node.done
  split
  · exact .inl rfl
  · rename_i cl hk
    right
    obtain ⟨hid, s, b, hp, hC, hq, _⟩ := closure_phase h (List.mem_of_getElem? hk)
    refine ⟨cl, hk, hC, ?_⟩
    simp only
    have hq1 : Quiet ({ v with
        closures := v.closures.eraseIdx k
        log := v.log ++ [.ended cl.id] } : Node) cl.id := hq
    rw [cleanupTask_quiet hq1]
    split
    · exact ⟨rfl, rfl, by simp⟩
    · exact ⟨rfl, rfl, by simp⟩

/-- The fold over the marked tasks: tasks disappear, closures appear, and only
notifications are added to the log. -/
theorem fold_frame {c s : Nat} : ∀ (todo : List Nat) (v : Node), FoldInv v c s todo →
    let v' := todo.foldl (fun v id => v.cleanTask c id) v
    (∀ a ∈ v'.active, a ∈ v.active) ∧ (∀ cl ∈ v.closures, cl ∈ v'.closures) ∧
      ∃ l, v'.log = v.log ++ l ∧ ∀ r ∈ l, r = .notified c
  | [], v, h => ⟨fun _ h => h, fun _ h => h, [], by simp, by simp⟩
  | id :: todo, v, h => by
    obtain ⟨hid, b, hm, hb⟩ := h.mid id List.mem_cons_self
    have ih := fold_frame todo _ (cleanTask_fold h)
    simp only [List.foldl_cons] at ih ⊢
    obtain ⟨i1, i2, l, i3, i4⟩ := ih
    obtain ⟨_, _, _, hc⟩ := cleanTask_cases hm hb
    obtain ⟨l', hl', hn'⟩ := cleanTask_log hm hb
    refine ⟨?_, ?_, l' ++ l, by rw [i3, hl', List.append_assoc], ?_⟩
    · intro a ha
      have := i1 a ha
      rcases hc with hc | hc | hc
      · rwa [hc.2.1] at this
      · rw [hc.2.1] at this; exact (List.mem_filter.mp this).1
      · rwa [hc.1] at this
    · intro cl hcl
      apply i2
      rcases hc with hc | hc | hc
      · rw [hc.2.2.1]; exact List.mem_append_left _ hcl
      · rw [hc.2.2.1]; exact hcl
      · rwa [hc.1]
    · intro r hr
      rcases List.mem_append.mp hr with hr | hr
      · exact hn' r hr
      · exact i4 r hr

theorem begunOf_append (l l' : List Rec) : begunOf (l ++ l') = begunOf l ++ begunOf l' := by
  simp [begunOf]

theorem begunOf_none {l : List Rec} (h : ∀ c s, .begun c s ∉ l) : begunOf l = [] := by
  simp only [begunOf, List.filterMap_eq_nil_iff]
  intro r hr
  cases r with
  | begun c s => exact absurd hr (h c s)
  | _ => rfl

theorem mem_begunOf {l : List Rec} {c s : Nat} : (c, s) ∈ begunOf l ↔ .begun c s ∈ l := by
  simp only [begunOf, List.mem_filterMap]
  constructor
  · rintro ⟨r, hr, h⟩
    cases r with
    | begun c' s' => simp only [Option.some.injEq, Prod.mk.injEq] at h; rw [h.1, h.2] at hr; exact hr
    | _ => cases h
  · intro h; exact ⟨_, h, rfl⟩

/-- A position in `a ++ b` is one in `a` or one in `b`. -/
theorem split_append {α : Type} {a b l1 l2 : List α} {r : α} (h : a ++ b = l1 ++ r :: l2) :
    (∃ l2', a = l1 ++ r :: l2' ∧ l2 = l2' ++ b) ∨ (∃ l1', l1 = a ++ l1' ∧ b = l1' ++ r :: l2) := by
  rcases List.append_eq_append_iff.mp h with ⟨t, h1, h2⟩ | ⟨t, h1, h2⟩
  · exact .inr ⟨t, h1, h2⟩
  · cases t with
    | nil => exact .inr ⟨[], by simpa using h1.symm, by simpa using h2.symm⟩
    | cons x t =>
      simp only [List.cons_append, List.cons.injEq] at h2
      obtain ⟨rfl, h2⟩ := h2
      exact .inl ⟨t, h1, h2⟩

theorem StartedBefore.of_append {log l : List Rec} {id s c : Nat} (hl : ∀ c s, .begun c s ∉ l)
    (h : StartedBefore (log ++ l) id s c) : StartedBefore log id s c := by
  obtain ⟨l1, l2, he, hb⟩ := h
  rcases split_append he with ⟨l2', h1, _⟩ | ⟨l1', _, h2⟩
  · exact ⟨l1, l2', h1, hb⟩
  · exact absurd (by rw [h2]; simp) (hl c s)

theorem StartedBefore.begun {log : List Rec} {id s c : Nat} (h : StartedBefore log id s c) :
    (c, s) ∈ begunOf log := by
  obtain ⟨l1, l2, he, hb⟩ := h
  rw [mem_begunOf, he]; simp

/-! ### A cleanup is reported only when its tasks are over -/

/-- Marks come from cleanups. -/
def MarkOK (v : Node) : Prop :=
  ∀ a ∈ v.active, ∀ c, a.cleaned = some c → (c, a.session) ∈ begunOf v.log

structure Safe (v : Node) : Prop where
  mark : MarkOK v
  clos : ∀ cl ∈ v.closures, (∃ a ∈ v.active, a.id = cl.id) ∧
    ∀ c, cl.cleaned = some c → ∃ a ∈ v.active, a.id = cl.id ∧ a.cleaned = some c
  pend : ∀ c s id, StartedBefore v.log id s c →
    .ended id ∈ v.log ∨ ∃ a ∈ v.active, a.id = id ∧ a.cleaned = some c
  note : ∀ l1 l2 c, v.log = l1 ++ .notified c :: l2 →
    ∀ id s, StartedBefore l1 id s c → .ended id ∈ l1
  fin : ∀ c, .notified c ∈ v.log →
    (∃ s, (c, s) ∈ begunOf v.log) ∧ ∀ a ∈ v.active, a.cleaned ≠ some c
  once : ∀ c, v.log.count (.notified c) ≤ 1

theorem Safe.plain {v v' : Node} (h : Safe v) {l : List Rec} (hl : v'.log = v.log ++ l)
    (hb : ∀ c s, .begun c s ∉ l)
    (hA1 : ∀ a' ∈ v'.active, a' ∈ v.active ∨ a'.cleaned = none)
    (hA2 : ∀ a ∈ v.active, a ∈ v'.active ∨ .ended a.id ∈ l)
    (hC : ∀ cl ∈ v'.closures, (∃ a ∈ v'.active, a.id = cl.id) ∧
      ∀ c, cl.cleaned = some c → ∃ a ∈ v'.active, a.id = cl.id ∧ a.cleaned = some c)
    (hN : ∀ l1 l2 c, l = l1 ++ .notified c :: l2 →
      (∀ a ∈ v.active, a.cleaned = some c → .ended a.id ∈ l1) ∧
      (∀ a ∈ v'.active, a.cleaned ≠ some c) ∧ ∃ a ∈ v.active, a.cleaned = some c)
    (hN1 : ∀ c, l.count (.notified c) ≤ 1) : Safe v' := by
  have hbeg : begunOf v'.log = begunOf v.log := by
    rw [hl, begunOf_append, begunOf_none hb, List.append_nil]
  have hN' : ∀ c, .notified c ∈ l → (∀ a ∈ v'.active, a.cleaned ≠ some c) ∧
      ∃ a ∈ v.active, a.cleaned = some c := by
    intro c hc
    obtain ⟨l1, l2, he⟩ := List.append_of_mem hc
    exact (hN l1 l2 c he).2
  constructor
  · intro a ha c hc
    rw [hbeg]
    rcases hA1 a ha with h' | h'
    · exact h.mark a h' c hc
    · rw [h'] at hc; cases hc
  · exact hC
  · intro c s id hs
    rw [hl] at hs ⊢
    rcases h.pend c s id (hs.of_append hb) with h' | ⟨a, ha, hai, hac⟩
    · exact .inl (List.mem_append_left _ h')
    · rcases hA2 a ha with h' | h'
      · exact .inr ⟨a, h', hai, hac⟩
      · exact .inl (List.mem_append_right _ (hai ▸ h'))
  · intro l1 l2 c he id s hs
    rw [hl] at he
    rcases split_append he with ⟨l2', h1, _⟩ | ⟨l1', h1, h2⟩
    · exact h.note l1 l2' c h1 id s hs
    · rw [h1] at hs ⊢
      have hb' : ∀ c s, .begun c s ∉ l1' := by
        intro c s hm
        exact hb c s (by rw [h2]; exact List.mem_append_left _ hm)
      rcases h.pend c s id (hs.of_append hb') with h' | ⟨a, ha, hai, hac⟩
      · exact List.mem_append_left _ h'
      · exact List.mem_append_right _ (hai ▸ (hN l1' l2 c h2).1 a ha hac)
  · intro c hc
    rw [hl, List.mem_append] at hc
    rw [hbeg]
    rcases hc with hc | hc
    · refine ⟨(h.fin c hc).1, ?_⟩
      intro a ha hac
      rcases hA1 a ha with h' | h'
      · exact (h.fin c hc).2 a h' hac
      · rw [h'] at hac; cases hac
    · obtain ⟨h1, a, ha, hac⟩ := hN' c hc
      exact ⟨⟨_, h.mark a ha c hac⟩, h1⟩
  · intro c
    rw [hl, List.count_append]
    by_cases hc : Rec.notified c ∈ l
    · obtain ⟨_, a, ha, hac⟩ := hN' c hc
      have : v.log.count (.notified c) = 0 := by
        rw [List.count_eq_zero]
        intro hm
        exact (h.fin c hm).2 a ha hac
      have := hN1 c
      omega
    · have := List.count_eq_zero.mpr hc
      have := h.once c
      omega

theorem halts_safe {v v' : Node} {id : Nat} (h : Safe v) (hh : Halts v v' id) : Safe v' := by
  rcases hh with rfl | ⟨ha, hl, hc⟩
  · exact h
  · refine h.plain hl (by simp) ?_ ?_ ?_ ?_ (by simp)
    · intro a h'; rw [ha] at h'; exact .inl h'
    · intro a h'; rw [ha]; exact .inl h'
    · rw [ha]
      rcases hc with hc | ⟨cl', hc, hcn, hca⟩
      · rw [hc]; exact h.clos
      · rw [hc]
        intro cl hcl
        rcases List.mem_append.mp hcl with hcl | hcl
        · exact h.clos cl hcl
        · rw [List.mem_singleton] at hcl
          subst hcl
          exact ⟨hca, fun c h' => by rw [hcn] at h'; cases h'⟩
    · intro l1 l2 c he
      have : Rec.notified c ∈ [Rec.stopping id] := by rw [he]; simp
      simp at this

theorem mem_unblocks {r : Rec} {id : Nat} {b : Bool} (h : r ∈ unblocks id b) : r = .unblocked id := by
  cases b <;> simp [unblocks] at h; exact h

theorem mem_notifs {r : Rec} {a : List Active} {id : Nat} {c : Option Nat} (h : r ∈ notifs a id c) :
    ∃ c', c = some c' ∧ cleanupReady a id c' = true ∧ r = .notified c' := by
  cases c with
  | none => cases h
  | some c =>
    simp only [notifs] at h
    split at h
    · exact ⟨c, rfl, by assumption, by simpa using h⟩
    · cases h

theorem count_notifs (a : List Active) (id : Nat) (c : Option Nat) (c' : Nat) :
    (notifs a id c).count (.notified c') ≤ 1 := by
  cases c with
  | none => simp [notifs]
  | some c =>
    simp only [notifs]
    split
    · exact Nat.le_trans (List.count_le_length) (by simp)
    · simp

theorem ready_safe {v : Node} (hi : Inv v) (h : Safe v) (id : Nat) : Safe (v.ready id) := by
  rcases ready_cases hi id with he | ⟨b, hC, hA, hCl, hL⟩
  · rw [he]; exact h
  · refine h.plain hL ?_ ?_ ?_ ?_ ?_ ?_
    · intro c s hm
      rcases List.mem_append.mp hm with hm | hm
      · simp at hm
      · cases mem_unblocks hm
    · intro a ha; rw [hA] at ha; exact .inl (List.mem_filter.mp ha).1
    · intro a ha
      by_cases hid : a.id = id
      · right; rw [hid]; simp
      · left; rw [hA]; simp [ha, hid]
    · intro cl hcl
      rw [hCl] at hcl
      have hne : cl.id ≠ id := by
        intro he
        have : cl ∈ ownC id v.closures := mem_own.mpr ⟨hcl, he⟩
        rw [hC] at this; cases this
      obtain ⟨⟨a, ha, hai⟩, h2⟩ := h.clos cl hcl
      refine ⟨⟨a, by rw [hA]; simp [ha, hai, hne], hai⟩, ?_⟩
      intro c hc
      obtain ⟨a', ha', hai', hac'⟩ := h2 c hc
      exact ⟨a', by rw [hA]; simp [ha', hai', hne], hai', hac'⟩
    · intro l1 l2 c he
      have : Rec.notified c ∈ [Rec.ended id, Rec.responded id] ++ unblocks id b := by rw [he]; simp
      rcases List.mem_append.mp this with hm | hm
      · simp at hm
      · cases mem_unblocks hm
    · intro c
      have : Rec.notified c ∉ [Rec.ended id, Rec.responded id] ++ unblocks id b := by
        intro hm
        rcases List.mem_append.mp hm with hm | hm
        · simp at hm
        · cases mem_unblocks hm
      rw [List.count_eq_zero.mpr this]; omega

theorem done_safe {v : Node} (hi : Inv v) (h : Safe v) (k : Nat) : Safe (v.done k) := by
  rcases done_cases hi k with he | ⟨cl, hk, hC, hA, hCl, hL⟩
  · rw [he]; exact h
  · have hcl : cl ∈ v.closures := List.mem_of_getElem? hk
    have hmem : ∀ c, Rec.notified c ∈ [Rec.ended cl.id] ++ unblocks cl.id cl.blocker ++
        notifs v.active cl.id cl.cleaned ++ (if cl.dispose then [.disposed cl.id] else []) →
        cl.cleaned = some c ∧ cleanupReady v.active cl.id c = true := by
      intro c hm
      rcases List.mem_append.mp hm with hm | hm
      · rcases List.mem_append.mp hm with hm | hm
        · rcases List.mem_append.mp hm with hm | hm
          · simp at hm
          · cases mem_unblocks hm
        · obtain ⟨c', h1, h2, h3⟩ := mem_notifs hm
          cases h3
          exact ⟨h1, h2⟩
      · split at hm <;> simp at hm
    have hrd : ∀ {c}, cleanupReady v.active cl.id c = true → ∀ a ∈ v.active, a.cleaned = some c →
        a.id = cl.id := by
      intro c hr a ha hac
      have := List.all_eq_true.mp hr a ha
      simpa [hac] using this
    refine h.plain hL ?_ ?_ ?_ ?_ ?_ ?_
    · intro c s hm
      rcases List.mem_append.mp hm with hm | hm
      · rcases List.mem_append.mp hm with hm | hm
        · rcases List.mem_append.mp hm with hm | hm
          · simp at hm
          · cases mem_unblocks hm
        · obtain ⟨c', h1, h2, h3⟩ := mem_notifs hm
          cases h3
      · split at hm <;> simp at hm
    · intro a ha; rw [hA] at ha; exact .inl (List.mem_filter.mp ha).1
    · intro a ha
      by_cases hid : a.id = cl.id
      · right; rw [hid]; simp
      · left; rw [hA]; simp [ha, hid]
    · intro cl' hcl'
      rw [hCl] at hcl'
      have hne : cl'.id ≠ cl.id := by
        intro he
        have : cl' ∈ ownC cl.id (v.closures.eraseIdx k) := mem_own.mpr ⟨hcl', he⟩
        rw [own_eraseIdx_self hk hC] at this; cases this
      have hcl'' : cl' ∈ v.closures := List.mem_of_mem_eraseIdx hcl'
      obtain ⟨⟨a, ha, hai⟩, h2⟩ := h.clos cl' hcl''
      refine ⟨⟨a, by rw [hA]; simp [ha, hai, hne], hai⟩, ?_⟩
      intro c hc
      obtain ⟨a', ha', hai', hac'⟩ := h2 c hc
      exact ⟨a', by rw [hA]; simp [ha', hai', hne], hai', hac'⟩
    · intro l1 l2 c he
      obtain ⟨hcc, hr⟩ := hmem c (by rw [he]; simp)
      refine ⟨?_, ?_, ?_⟩
      · intro a ha hac
        rw [hrd hr a ha hac]
        cases l1 with
        | nil => simp at he
        | cons x l1 =>
          simp only [List.singleton_append, List.cons_append, List.cons.injEq, List.append_assoc] at he
          rw [← he.1]
          exact List.mem_cons_self
      · intro a ha hac
        rw [hA] at ha
        obtain ⟨ha1, ha2⟩ := List.mem_filter.mp ha
        have := hrd hr a ha1 hac
        simp [this] at ha2
      · obtain ⟨a, ha, _, hac⟩ := (h.clos cl hcl).2 c hcc
        exact ⟨a, ha, hac⟩
    · intro c
      have h1 : (unblocks cl.id cl.blocker).count (.notified c) = 0 :=
        List.count_eq_zero.mpr (fun hm => by cases mem_unblocks hm)
      have h2 := count_notifs v.active cl.id cl.cleaned c
      have h3 : (if cl.dispose then [Rec.disposed cl.id] else []).count (.notified c) = 0 := by
        split <;> simp
      have h4 : [Rec.ended cl.id].count (.notified c) = 0 := by simp
      simp only [List.count_append, h1, h3, h4]
      omega

theorem start_safe {v : Node} (h : Safe v) (s : Nat) (b : Bool) : Safe (v.start s b) := by
  refine h.plain (l := [.started v.next s b]) rfl (by simp) ?_ ?_ ?_ ?_ (by simp)
  · intro a ha
    simp only [Node.start, List.mem_append, List.mem_singleton] at ha
    rcases ha with ha | rfl
    · exact .inl ha
    · exact .inr rfl
  · intro a ha; exact .inl (List.mem_append_left _ ha)
  · intro cl hcl
    obtain ⟨⟨a, ha, hai⟩, h2⟩ := h.clos cl hcl
    refine ⟨⟨a, List.mem_append_left _ ha, hai⟩, ?_⟩
    intro c hc
    obtain ⟨a', ha', h'⟩ := h2 c hc
    exact ⟨a', List.mem_append_left _ ha', h'⟩
  · intro l1 l2 c he
    have : Rec.notified c ∈ [Rec.started v.next s b] := by rw [he]; simp
    simp at this

/-- A task that has started and not ended is active, unless it was cleaned up twice. -/
theorem started_active {v : Node} (h : Inv v) {id s : Nat} {b : Bool}
    (hs : .started id s b ∈ v.log) : .ended id ∈ v.log ∨ (∃ x, (⟨id, s, x⟩ : Active) ∈ v.active) ∨
      ∃ cl ∈ v.closures, cl.id = id ∧ ∀ a ∈ v.active, a.id ≠ id := by
  have hm : Rec.started id s b ∈ ownL id v.log := by simp [hs, about]
  have hid : id < v.next := by
    apply Nat.lt_of_not_le
    intro hle
    rw [(h.new id hle).1.2.2.2] at hm
    cases hm
  obtain ⟨s', b', hp⟩ := h.old id hid
  have hact : ∀ x, ownA id v.active = [⟨id, s', x⟩] → s = s' → ∃ x, (⟨id, s, x⟩ : Active) ∈ v.active := by
    rintro x hx rfl
    have : (⟨id, s, x⟩ : Active) ∈ ownA id v.active := by rw [hx]; simp
    exact ⟨x, (mem_own.mp this).1⟩
  have hend : ∀ {L}, ownL id v.log = L → .ended id ∈ L → .ended id ∈ v.log := by
    intro L hL hx
    rw [← hL] at hx
    exact (List.mem_filter.mp hx).1
  cases hp with
  | running hP =>
    rw [hP.2.2.2] at hm; simp at hm; exact .inr (.inl (hact _ hP.2.1 hm.1))
  | cleaning c hP hb =>
    rw [hP.2.2.2] at hm; simp at hm; exact .inr (.inl (hact _ hP.2.1 hm.1))
  | cleaningBare c x E hE hP hb hs =>
    rw [hP.2.2.2] at hm; simp at hm; exact .inr (.inl (hact _ hP.2.1 hm.1))
  | stopping x E hE hP hs =>
    rw [hP.2.2.2] at hm; simp at hm; exact .inr (.inl (hact _ hP.2.1 hm.1))
  | ghost c hP hb =>
    right; right
    have : (⟨id, s', b', some c, false⟩ : Closure) ∈ ownC id v.closures := by rw [hP.2.2.1]; simp
    refine ⟨_, (mem_own.mp this).1, rfl, ?_⟩
    intro a ha hai
    have : a ∈ ownA id v.active := mem_own.mpr ⟨ha, hai⟩
    rw [hP.2.1] at this; cases this
  | responded hP => exact .inl (hend hP.2.2.2 (by simp))
  | disposed hP => exact .inl (hend hP.2.2.2 (by simp))
  | cleaned c hP hb => exact .inl (hend hP.2.2.2 (by simp))

/-- In a cleanup that overlaps with no other, tasks are only asked to cancel. -/
theorem fold_simple {c s : Nat} : ∀ (todo : List Nat) (v : Node), FoldInv v c s todo →
    (∀ id ∈ todo, ∀ c', ownE id v.ents ≠ [⟨id, s, some ⟨false, false, some c', true⟩⟩]) →
    let v' := todo.foldl (fun v id => v.cleanTask c id) v
    v'.active = v.active ∧ v'.log = v.log ∧
      ∀ cl ∈ v'.closures, cl ∈ v.closures ∨ (cl.id ∈ todo ∧ cl.cleaned = some c)
  | [], v, h, _ => ⟨rfl, rfl, fun _ h => .inl h⟩
  | id :: todo, v, h, hE => by
    obtain ⟨hid, b, hm, hb⟩ := h.mid id List.mem_cons_self
    obtain ⟨_, hs, _, hc⟩ := cleanTask_cases hm hb
    have hnd := List.nodup_cons.mp h.nodup
    have ih := fold_simple todo _ (cleanTask_fold h) (by
      intro j hj c' he
      have hji : j ≠ id := fun e => hnd.1 (e ▸ hj)
      rw [(hs j hji).ents] at he
      exact hE j (List.mem_cons_of_mem _ hj) c' he)
    simp only [List.foldl_cons] at ih ⊢
    obtain ⟨i1, i2, i3⟩ := ih
    rcases hc with hc | hc | hc
    · refine ⟨by rw [i1, hc.2.1], by rw [i2, hc.2.2.2], ?_⟩
      intro cl hcl
      rcases i3 cl hcl with h' | ⟨h', h''⟩
      · rw [hc.2.2.1] at h'
        rcases List.mem_append.mp h' with h' | h'
        · exact .inl h'
        · rw [List.mem_singleton] at h'
          subst h'
          exact .inr ⟨List.mem_cons_self, rfl⟩
      · exact .inr ⟨List.mem_cons_of_mem _ h', h''⟩
    · obtain ⟨⟨c', he⟩, _⟩ := hc
      exact absurd he (hE id List.mem_cons_self c')
    · refine ⟨by rw [i1, hc.1], by rw [i2, hc.1], ?_⟩
      intro cl hcl
      rcases i3 cl hcl with h' | ⟨h', h''⟩
      · rw [hc.1] at h'; exact .inl h'
      · exact .inr ⟨List.mem_cons_of_mem _ h', h''⟩

theorem mem_marked {v : Node} {c s : Nat} {a' : Active} (h : a' ∈ (marked v c s).active) :
    ∃ a ∈ v.active, a'.id = a.id ∧ a'.session = a.session ∧
      ((a.session = s ∧ a'.cleaned = some c) ∨ (a.session ≠ s ∧ a' = a)) := by
  obtain ⟨a, ha, rfl⟩ := List.mem_map.mp h
  refine ⟨a, ha, ?_⟩
  by_cases hs : a.session = s
  · simp [hs]
  · simp [hs]

theorem clean_safe {v : Node} (hi : Inv v) (h : Safe v) (c s : Nat)
    (hno : NoOverlap (v.clean c s).log) : Safe (v.clean c s) := by
  -- the identifiers are new
  have hfold := marked_fold hi c s
  obtain ⟨hf1, hf2, lf, hf3, hf4⟩ := fold_frame _ _ hfold
  have hnew : (∀ s', (c, s') ∉ begunOf v.log) ∧ (∀ c', (c', s) ∉ begunOf v.log) := by
    have hb : begunOf (v.clean c s).log = begunOf v.log ++ [(c, s)] := by
      have h1 : begunOf ((todoOf v s).foldl (fun v id => v.cleanTask c id) (marked v c s)).log =
          begunOf v.log ++ [(c, s)] := by
        rw [hf3, begunOf_append, begunOf_none (l := lf) (fun c s hm => by cases hf4 _ hm)]
        simp [marked, begunOf]
      rw [clean_eq]
      split
      · simp only [Node.notify, begunOf_append, h1]
        simp [begunOf]
      · exact h1
    unfold NoOverlap at hno
    rw [hb] at hno
    simp only [List.map_append, List.map_cons, List.map_nil] at hno
    constructor
    · intro s' hm
      have := (List.nodup_append.mp hno.1).2.2 c (List.mem_map.mpr ⟨_, hm, rfl⟩) c (by simp)
      exact this rfl
    · intro c' hm
      have := (List.nodup_append.mp hno.2).2.2 s (List.mem_map.mpr ⟨_, hm, rfl⟩) s (by simp)
      exact this rfl
  have hunm : ∀ a ∈ v.active, a.session = s → a.cleaned = none := by
    intro a ha has
    cases hc : a.cleaned with
    | none => rfl
    | some c' => exact absurd (has ▸ h.mark a ha c' hc) (hnew.2 c')
  have hsimple := fold_simple _ _ hfold (by
    intro id hid c' hE
    obtain ⟨a, ha, has, hai⟩ := mem_todoOf.mp hid
    have hE' : ownE id v.ents = [⟨id, s, some ⟨false, false, some c', true⟩⟩] := hE
    obtain ⟨_, b, hp, hA, _⟩ := active_phase hi ha
    have hno := hunm a ha has
    rw [hai] at hp hA
    cases hp with
    | running hP => rw [hP.1] at hE'; cases hE'
    | cleaning c hP hb =>
      have h2 := hA.symm.trans hP.2.1
      simp only [List.cons.injEq, and_true] at h2
      rw [h2] at hno
      cases hno
    | cleaningBare c x E hE2 hP hb hs => rw [hP.1] at hE'; rcases hE2 with rfl | rfl <;> cases hE'
    | stopping x E hE2 hP hs => rw [hP.1] at hE'; rcases hE2 with rfl | rfl <;> cases hE'
    | ghost c hP hb => rw [hP.1] at hE'; cases hE'
    | responded hP => rw [hP.1] at hE'; cases hE'
    | disposed hP => rw [hP.1] at hE'; cases hE'
    | cleaned c hP hb => rw [hP.1] at hE'; cases hE')
  simp only at hsimple
  generalize hw : (todoOf v s).foldl (fun v id => v.cleanTask c id) (marked v c s) = w at hsimple
  obtain ⟨w1, w2, w3⟩ := hsimple
  have hwlog : w.log = v.log ++ [.begun c s] := w2
  -- an old mark survives
  have hkeep : ∀ a ∈ v.active, ∀ c', a.cleaned = some c' → a ∈ w.active := by
    intro a ha c' hc'
    rw [w1]
    have hs : a.session ≠ s := fun e => by rw [hunm a ha e] at hc'; cases hc'
    exact List.mem_map.mpr ⟨a, ha, by simp [hs]⟩
  have hkeep' : ∀ a ∈ v.active, ∃ a' ∈ w.active, a'.id = a.id := by
    intro a ha
    rw [w1]
    exact ⟨_, List.mem_map.mpr ⟨a, ha, rfl⟩, by split <;> rfl⟩
  have hmark : ∀ a ∈ v.active, a.session = s → ∃ a' ∈ w.active, a'.id = a.id ∧ a'.cleaned = some c := by
    intro a ha has
    rw [w1]
    exact ⟨_, List.mem_map.mpr ⟨a, ha, rfl⟩, by simp [has], by simp [has]⟩
  have hstart : ∀ id b, .started id s b ∈ v.log →
      .ended id ∈ v.log ∨ ∃ a ∈ v.active, a.id = id ∧ a.session = s := by
    intro id b hs
    rcases started_active hi hs with h1 | ⟨x, h1⟩ | ⟨cl, hcl, hid, hnone⟩
    · exact .inl h1
    · exact .inr ⟨_, h1, rfl, rfl⟩
    · obtain ⟨⟨a, ha, hai⟩, _⟩ := h.clos cl hcl
      exact absurd (hai.trans hid) (hnone a ha)
  have hbw : begunOf w.log = begunOf v.log ++ [(c, s)] := by
    rw [hwlog, begunOf_append]; rfl
  have hsb : ∀ {id s' c'}, StartedBefore w.log id s' c' → StartedBefore v.log id s' c' ∨
      (s' = s ∧ c' = c ∧ ∃ b, .started id s b ∈ v.log) := by
    rintro id s' c' ⟨l1, l2, he, b, hb⟩
    rw [hwlog] at he
    rcases split_append he with ⟨l2', h1, _⟩ | ⟨l1', h1, h2⟩
    · exact .inl ⟨l1, l2', h1, b, hb⟩
    · right
      cases l1' with
      | cons x t => simp at h2
      | nil =>
        simp only [List.nil_append, List.cons.injEq, Rec.begun.injEq] at h2
        obtain ⟨⟨rfl, rfl⟩, _⟩ := h2
        rw [h1, List.append_nil] at hb
        exact ⟨rfl, rfl, b, hb⟩
  have hbase : Safe w := by
    constructor
    · intro a ha c' hc'
      rw [hbw]
      rw [w1] at ha
      obtain ⟨a0, ha0, _, hses, h' | h'⟩ := mem_marked ha
      · rw [h'.2] at hc'
        cases hc'
        rw [hses, h'.1]; simp
      · rw [h'.2] at hc' ⊢
        exact List.mem_append_left _ (h.mark a0 ha0 c' hc')
    · intro cl hcl
      rcases w3 cl hcl with hcl | ⟨hid, hcc⟩
      · obtain ⟨⟨a, ha, hai⟩, h2⟩ := h.clos cl hcl
        obtain ⟨a', ha', he⟩ := hkeep' a ha
        refine ⟨⟨a', ha', he.trans hai⟩, ?_⟩
        intro c' hc'
        obtain ⟨a2, ha2, hai2, hac2⟩ := h2 c' hc'
        exact ⟨a2, hkeep a2 ha2 c' hac2, hai2, hac2⟩
      · obtain ⟨a, ha, has, hai⟩ := mem_todoOf.mp hid
        obtain ⟨a', ha', he, hc'⟩ := hmark a ha has
        refine ⟨⟨a', ha', he.trans hai⟩, ?_⟩
        intro c2 hc2
        rw [hcc] at hc2
        cases hc2
        exact ⟨a', ha', he.trans hai, hc'⟩
    · intro c' s' id hs
      rcases hsb hs with h1 | ⟨rfl, rfl, b, hb⟩
      · rcases h.pend c' s' id h1 with h2 | ⟨a, ha, hai, hac⟩
        · left; rw [hwlog]; exact List.mem_append_left _ h2
        · exact .inr ⟨a, hkeep a ha c' hac, hai, hac⟩
      · rcases hstart id b hb with h2 | ⟨a, ha, hai, has⟩
        · left; rw [hwlog]; exact List.mem_append_left _ h2
        · obtain ⟨a', ha', he, hc'⟩ := hmark a ha has
          exact .inr ⟨a', ha', he.trans hai, hc'⟩
    · intro l1 l2 c' he id s' hs
      rw [hwlog] at he
      rcases split_append he with ⟨l2', h1, _⟩ | ⟨l1', h1, h2⟩
      · exact h.note l1 l2' c' h1 id s' hs
      · have : Rec.notified c' ∈ [Rec.begun c s] := by rw [h2]; simp
        simp at this
    · intro c' hc'
      rw [hwlog] at hc'
      have hc'' : .notified c' ∈ v.log := by simpa using hc'
      obtain ⟨⟨s', hs'⟩, hn⟩ := h.fin c' hc''
      refine ⟨⟨s', by rw [hbw]; exact List.mem_append_left _ hs'⟩, ?_⟩
      intro a ha hac
      rw [w1] at ha
      obtain ⟨a0, ha0, _, _, h' | h'⟩ := mem_marked ha
      · rw [h'.2] at hac
        cases hac
        exact hnew.1 s' hs'
      · rw [h'.2] at hac
        exact hn a0 ha0 hac
    · intro c'
      rw [hwlog, List.count_append]
      have := h.once c'
      simpa using this
  rw [clean_eq, hw]
  split
  · rename_i htodo
    have hempty : ∀ a ∈ v.active, a.session ≠ s := by
      intro a ha has
      have : a.id ∈ todoOf v s := mem_todoOf.mpr ⟨a, ha, has, rfl⟩
      rw [htodo] at this; cases this
    have hnn : .notified c ∉ w.log := by
      intro hm
      rw [hwlog] at hm
      have hm' : .notified c ∈ v.log := by simpa using hm
      obtain ⟨⟨s', hs'⟩, _⟩ := h.fin c hm'
      exact hnew.1 s' hs'
    have hnm : ∀ a ∈ w.active, a.cleaned ≠ some c := by
      intro a ha hac
      rw [w1] at ha
      obtain ⟨a0, ha0, _, _, h' | h'⟩ := mem_marked ha
      · exact hempty a0 ha0 h'.1
      · rw [h'.2] at hac
        exact hnew.1 _ (h.mark a0 ha0 c hac)
    have hbn : begunOf (w.notify c).log = begunOf w.log := by
      simp [Node.notify, begunOf_append, begunOf]
    constructor
    · intro a ha c' hc'
      rw [hbn]
      exact hbase.mark a ha c' hc'
    · exact hbase.clos
    · intro c' s' id hs
      rcases hbase.pend c' s' id (StartedBefore.of_append (by simp) hs) with h1 | h1
      · exact .inl (List.mem_append_left _ h1)
      · exact .inr h1
    · intro l1 l2 c' he id s' hs
      rcases split_append (a := w.log) (b := [.notified c]) he with ⟨l2', h1, _⟩ | ⟨l1', h1, h2⟩
      · exact hbase.note l1 l2' c' h1 id s' hs
      · cases l1' with
        | cons x t => simp at h2
        | nil =>
          simp only [List.nil_append, List.cons.injEq, Rec.notified.injEq] at h2
          obtain ⟨rfl, _⟩ := h2
          rw [h1, List.append_nil] at hs ⊢
          rcases hbase.pend c s' id hs with h3 | ⟨a, ha, _, hac⟩
          · exact h3
          · exact absurd hac (hnm a ha)
    · intro c' hc'
      rw [hbn]
      have hc2 : .notified c' ∈ w.log ∨ c' = c := by simpa [Node.notify] using hc'
      rcases hc2 with hc2 | rfl
      · exact hbase.fin c' hc2
      · exact ⟨⟨s, by rw [hbw]; simp⟩, hnm⟩
    · intro c'
      simp only [Node.notify, List.count_append]
      by_cases hcc : c' = c
      · subst hcc
        rw [List.count_eq_zero.mpr hnn]
        simp
      · have h2 : [Rec.notified c].count (.notified c') = 0 := by
          rw [List.count_eq_zero]; simp [hcc]
        have := hbase.once c'
        omega
  · exact hbase

theorem step_safe {v : Node} (hi : Inv v) (h : Safe v) (e : Ev) (hno : NoOverlap (step v e).log) :
    Safe (step v e) := by
  cases e with
  | start s b => exact start_safe h s b
  | ready id => exact ready_safe hi h id
  | stop id => exact halts_safe h (stop_cases hi id)
  | despawn id => exact halts_safe h (despawn_cases hi id)
  | clean c s => exact clean_safe hi h c s hno
  | done k => exact done_safe hi h k

/-- The log only grows. -/
theorem step_log {v : Node} (hi : Inv v) (e : Ev) : ∃ l, (step v e).log = v.log ++ l := by
  have halt : ∀ {v' id}, Halts v v' id → ∃ l, v'.log = v.log ++ l := by
    rintro v' id (rfl | ⟨_, h, _⟩)
    · exact ⟨[], by simp⟩
    · exact ⟨_, h⟩
  cases e with
  | start s b => exact ⟨_, rfl⟩
  | ready id =>
    rcases ready_cases hi id with he | ⟨b, _, _, _, hL⟩
    · exact ⟨[], by simp [step, he]⟩
    · exact ⟨_, hL⟩
  | stop id => exact halt (stop_cases hi id)
  | despawn id => exact halt (despawn_cases hi id)
  | clean c s =>
    obtain ⟨_, _, l, hl, _⟩ := fold_frame _ _ (marked_fold hi c s)
    simp only [step, clean_eq]
    split
    · exact ⟨[.begun c s] ++ l ++ [.notified c], by
        simp only [Node.notify]; rw [hl]; simp [marked]⟩
    · exact ⟨[.begun c s] ++ l, by rw [hl]; simp [marked]⟩
  | done k =>
    rcases done_cases hi k with he | ⟨cl, _, _, _, _, hL⟩
    · exact ⟨[], by simp [step, he]⟩
    · exact ⟨_, hL⟩

theorem run_log : ∀ (es : List Ev) {v : Node}, Inv v → ∃ l, (run v es).log = v.log ++ l
  | [], v, _ => ⟨[], by simp [run]⟩
  | e :: es, v, hi => by
    obtain ⟨l, hl⟩ := step_log hi e
    obtain ⟨l', hl'⟩ := run_log es (step_inv hi e)
    refine ⟨l ++ l', ?_⟩
    show (run (step v e) es).log = _
    rw [hl', hl, List.append_assoc]

theorem NoOverlap.prefix {log l : List Rec} (h : NoOverlap (log ++ l)) : NoOverlap log := by
  unfold NoOverlap at h ⊢
  rw [begunOf_append, List.map_append, List.map_append] at h
  exact ⟨(List.nodup_append.mp h.1).1, (List.nodup_append.mp h.2).1⟩

theorem run_safe : ∀ (es : List Ev) {v : Node}, Inv v → Safe v → NoOverlap (run v es).log →
    Safe (run v es)
  | [], _, _, h, _ => h
  | e :: es, v, hi, h, hno => by
    have hi' := step_inv hi e
    obtain ⟨l, hl⟩ := run_log es hi'
    have hno' : NoOverlap (step v e).log := by
      have h1 : NoOverlap ((run (step v e) es).log) := hno
      rw [hl] at h1
      exact h1.prefix
    exact run_safe es hi' (step_safe hi h e hno') hno

theorem fresh_safe : Safe {} := by
  constructor
  · intro a ha; cases ha
  · intro a ha; cases ha
  · rintro c s id ⟨l1, l2, he, _⟩; simp at he
  · intro l1 l2 c he; simp at he
  · intro c hc; cases hc
  · intro c; simp

/-! ### Every cleanup is reported in the end -/

/-- Cleanups without stopped tasks make progress. -/
def Live (v : Node) : Prop :=
  ∀ c s, (c, s) ∈ begunOf v.log → NoneStopping v.log c s →
    (.notified c ∈ v.log ∨ ∃ cl ∈ v.closures, cl.cleaned = some c) ∧
    ∀ a ∈ v.active, a.cleaned = some c → ∃ cl ∈ v.closures, cl.id = a.id ∧ cl.cleaned = some c

theorem NoneStopping.prefix {log l : List Rec} {c s : Nat} (h : NoneStopping (log ++ l) c s) :
    NoneStopping log c s := by
  intro l1 l2 he
  exact h l1 (l2 ++ l) (by rw [he]; simp)

theorem Live.plain {v v' : Node} (h : Live v) {l : List Rec} (hl : v'.log = v.log ++ l)
    (hb : ∀ c s, .begun c s ∉ l)
    (hA : ∀ a' ∈ v'.active, a' ∈ v.active ∨ a'.cleaned = none)
    (hC : ∀ cl ∈ v.closures, cl ∈ v'.closures) : Live v' := by
  intro c s hm hn
  rw [hl] at hm hn
  rw [begunOf_append, begunOf_none hb, List.append_nil] at hm
  obtain ⟨h1, h2⟩ := h c s hm hn.prefix
  constructor
  · rcases h1 with h1 | ⟨cl, hcl, hcc⟩
    · left; rw [hl]; exact List.mem_append_left _ h1
    · exact .inr ⟨cl, hC cl hcl, hcc⟩
  · intro a ha hac
    rcases hA a ha with ha' | ha'
    · obtain ⟨cl, hcl, h'⟩ := h2 a ha' hac
      exact ⟨cl, hC cl hcl, h'⟩
    · rw [ha'] at hac; cases hac

theorem halts_live {v v' : Node} {id : Nat} (h : Live v) (hh : Halts v v' id) : Live v' := by
  rcases hh with rfl | ⟨ha, hl, hc⟩
  · exact h
  · refine h.plain hl (by simp) (fun a h' => .inl (ha ▸ h')) ?_
    intro cl hcl
    rcases hc with hc | ⟨cl', hc, _⟩
    · rw [hc]; exact hcl
    · rw [hc]; exact List.mem_append_left _ hcl

theorem done_live {v : Node} (hi : Inv v) (h : Live v) (k : Nat) : Live (v.done k) := by
  rcases done_cases hi k with he | ⟨cl, hk, hC, hA, hCl, hL⟩
  · rw [he]; exact h
  · have hbl : ∀ c s, Rec.begun c s ∉ [Rec.ended cl.id] ++ unblocks cl.id cl.blocker ++
        notifs v.active cl.id cl.cleaned ++ (if cl.dispose then [.disposed cl.id] else []) := by
      intro c s hm
      rcases List.mem_append.mp hm with hm | hm
      · rcases List.mem_append.mp hm with hm | hm
        · rcases List.mem_append.mp hm with hm | hm
          · simp at hm
          · cases mem_unblocks hm
        · obtain ⟨c', h1, h2, h3⟩ := mem_notifs hm
          cases h3
      · split at hm <;> simp at hm
    intro c s hm hn
    rw [hL] at hm hn
    rw [begunOf_append, begunOf_none hbl, List.append_nil] at hm
    obtain ⟨h1, h2⟩ := h c s hm hn.prefix
    -- a closure of another task survives
    have hkeep : ∀ cl' ∈ v.closures, cl'.id ≠ cl.id → cl' ∈ (v.done k).closures := by
      intro cl' hcl' hne
      have : cl' ∈ ownC cl'.id (v.closures.eraseIdx k) := by
        rw [own_eraseIdx_ne hk hne]
        exact mem_own.mpr ⟨hcl', rfl⟩
      rw [hCl]
      exact (mem_own.mp this).1
    have hact : ∀ a ∈ (v.done k).active, a.cleaned = some c →
        ∃ cl' ∈ (v.done k).closures, cl'.id = a.id ∧ cl'.cleaned = some c := by
      intro a ha hac
      rw [hA] at ha
      obtain ⟨ha1, ha2⟩ := List.mem_filter.mp ha
      obtain ⟨cl', hcl', hid, hcc⟩ := h2 a ha1 hac
      exact ⟨cl', hkeep cl' hcl' (by rw [hid]; simpa using ha2), hid, hcc⟩
    refine ⟨?_, hact⟩
    rcases h1 with h1 | ⟨cl', hcl', hcc'⟩
    · left; rw [hL]; exact List.mem_append_left _ h1
    · by_cases hid : cl'.id = cl.id
      · have : cl' = cl := by
          have : cl' ∈ ownC cl.id v.closures := mem_own.mpr ⟨hcl', hid⟩
          rw [hC] at this
          simpa using this
        subst this
        by_cases hr : cleanupReady v.active cl'.id c
        · left
          rw [hL]
          simp [notifs, hcc', hr]
        · right
          have : ∃ a ∈ v.active, a.id ≠ cl'.id ∧ a.cleaned = some c := by
            apply Classical.byContradiction
            intro hno
            apply hr
            unfold cleanupReady
            rw [List.all_eq_true]
            intro a ha
            by_cases hi' : a.id = cl'.id
            · simp [hi']
            · by_cases hac : a.cleaned = some c
              · exact absurd ⟨a, ha, hi', hac⟩ hno
              · simp [hac]
          obtain ⟨a, ha, hne, hac⟩ := this
          obtain ⟨cl2, hcl2, _, hc2⟩ := hact a (by rw [hA]; simp [ha, hne]) hac
          exact ⟨cl2, hcl2, hc2⟩
      · exact .inr ⟨cl', hkeep cl' hcl' hid, hcc'⟩

theorem fold_live {c s : Nat} : ∀ (todo : List Nat) (v : Node), FoldInv v c s todo →
    (∀ id ∈ todo, .stopping id ∉ v.log) →
    (∀ a ∈ v.active, a.cleaned = some c → a.id ∈ todo ∨
      ∃ cl ∈ v.closures, cl.id = a.id ∧ cl.cleaned = some c) →
    (todo ≠ [] ∨ .notified c ∈ v.log ∨ ∃ cl ∈ v.closures, cl.cleaned = some c) →
    let v' := todo.foldl (fun v id => v.cleanTask c id) v
    (∀ a ∈ v'.active, a.cleaned = some c → ∃ cl ∈ v'.closures, cl.id = a.id ∧ cl.cleaned = some c) ∧
      (.notified c ∈ v'.log ∨ ∃ cl ∈ v'.closures, cl.cleaned = some c)
  | [], v, h, _, hF, hG => by
    refine ⟨fun a ha hac => ?_, ?_⟩
    · rcases hF a ha hac with h' | h'
      · cases h'
      · exact h'
    · rcases hG with hG | hG
      · exact absurd rfl hG
      · exact hG
  | id :: todo, v, h, hS, hF, hG => by
    obtain ⟨hid, b, hm, hb⟩ := h.mid id List.mem_cons_self
    obtain ⟨_, hs, _, hc⟩ := cleanTask_cases hm hb
    obtain ⟨l, hl, hln⟩ := cleanTask_log hm hb
    have hS' : ∀ j ∈ todo, .stopping j ∉ (v.cleanTask c id).log := by
      intro j hj hm
      rw [hl] at hm
      rcases List.mem_append.mp hm with hm | hm
      · exact hS j (List.mem_cons_of_mem _ hj) hm
      · cases hln _ hm
    rw [List.foldl_cons]
    refine fold_live todo _ (cleanTask_fold h) hS' ?_ ?_
    · intro a ha hac
      rcases hc with ⟨_, h1, h2, h3⟩ | ⟨_, h1, h2, h3⟩ | ⟨h1, h2, _⟩
      · rw [h1] at ha
        rcases hF a ha hac with h' | ⟨cl, hcl, h'⟩
        · rcases List.mem_cons.mp h' with h' | h'
          · right
            exact ⟨⟨id, s, b, some c, false⟩, by rw [h2]; simp, h'.symm, rfl⟩
          · exact .inl h'
        · exact .inr ⟨cl, by rw [h2]; exact List.mem_append_left _ hcl, h'⟩
      · rw [h1] at ha
        obtain ⟨ha1, ha2⟩ := List.mem_filter.mp ha
        rcases hF a ha1 hac with h' | ⟨cl, hcl, h'⟩
        · rcases List.mem_cons.mp h' with h' | h'
          · simp [h'] at ha2
          · exact .inl h'
        · exact .inr ⟨cl, by rw [h2]; exact hcl, h'⟩
      · exact absurd h2 (hS id List.mem_cons_self)
    · rcases hc with ⟨_, h1, h2, h3⟩ | ⟨_, h1, h2, h3⟩ | ⟨h1, h2, _⟩
      · exact .inr (.inr ⟨_, by rw [h2]; exact List.mem_append_right _ (List.mem_singleton_self _), rfl⟩)
      · by_cases hr : cleanupReady v.active id c
        · right; left
          rw [h3]
          simp [notifs, hr]
        · have : ∃ a ∈ v.active, a.id ≠ id ∧ a.cleaned = some c := by
            apply Classical.byContradiction
            intro hno
            apply hr
            unfold cleanupReady
            rw [List.all_eq_true]
            intro a ha
            by_cases hi' : a.id = id
            · simp [hi']
            · by_cases hac : a.cleaned = some c
              · exact absurd ⟨a, ha, hi', hac⟩ hno
              · simp [hac]
          obtain ⟨a, ha, hne, hac⟩ := this
          rcases hF a ha hac with h' | ⟨cl, hcl, _, h'⟩
          · rcases List.mem_cons.mp h' with h' | h'
            · exact absurd h' hne
            · left; intro e; rw [e] at h'; cases h'
          · exact .inr (.inr ⟨cl, by rw [h2]; exact hcl, h'⟩)
      · exact absurd h2 (hS id List.mem_cons_self)

theorem clean_live {v : Node} (hi : Inv v) (hk : MarkOK v) (h : Live v) (c s : Nat)
    (hnd : ((begunOf (v.clean c s).log).map (·.1)).Nodup) : Live (v.clean c s) := by
  have hfold := marked_fold hi c s
  have hff := fold_frame _ _ hfold
  have hlive := fold_live (c := c) (s := s) _ _ hfold
  generalize hw : (todoOf v s).foldl (fun v id => v.cleanTask c id) (marked v c s) = w at hff hlive
  simp only at hff hlive
  obtain ⟨hf1, hf2, lf, hf3, hf4⟩ := hff
  have hbf : ∀ c s, Rec.begun c s ∉ lf := fun c s hm => by cases hf4 _ hm
  have hbw : begunOf w.log = begunOf v.log ++ [(c, s)] := by
    rw [hf3, begunOf_append, begunOf_none hbf]
    simp [marked, begunOf]
  have hbe : begunOf (v.clean c s).log = begunOf v.log ++ [(c, s)] := by
    rw [clean_eq, hw]
    split
    · simp only [Node.notify, begunOf_append, hbw]; simp [begunOf]
    · exact hbw
  have hnew : ∀ s', (c, s') ∉ begunOf v.log := by
    intro s' hm
    rw [hbe, List.map_append] at hnd
    exact (List.nodup_append.mp hnd).2.2 c (List.mem_map.mpr ⟨_, hm, rfl⟩) c (by simp) rfl
  obtain ⟨lw, hlw, hwlog⟩ : ∃ l, (v.clean c s).log = v.log ++ [.begun c s] ++ l ∧
      ∃ l', l = lf ++ l' := by
    rw [clean_eq, hw]
    split
    · exact ⟨lf ++ [.notified c], by simp [Node.notify, hf3, marked], _, rfl⟩
    · exact ⟨lf, by simp [hf3, marked], [], by simp⟩
  have hact : (v.clean c s).active = w.active := by
    rw [clean_eq, hw]; split <;> rfl
  have hclo : (v.clean c s).closures = w.closures := by
    rw [clean_eq, hw]; split <;> rfl
  have hnot : ∀ c', .notified c' ∈ w.log → .notified c' ∈ (v.clean c s).log := by
    intro c' hm
    rw [clean_eq, hw]
    split
    · exact List.mem_append_left _ hm
    · exact hm
  intro c' s' hm hn
  rw [hbe] at hm
  rw [hact, hclo]
  rcases List.mem_append.mp hm with hm | hm
  · -- an older cleanup
    have hne : c' ≠ c := fun e => hnew s' (e ▸ hm)
    obtain ⟨h1, h2⟩ := h c' s' hm (by
      rw [hlw, List.append_assoc] at hn
      exact hn.prefix)
    constructor
    · rcases h1 with h1 | ⟨cl, hcl, hcc⟩
      · left
        rw [hlw, List.append_assoc]
        exact List.mem_append_left _ h1
      · exact .inr ⟨cl, hf2 cl hcl, hcc⟩
    · intro a ha hac
      obtain ⟨a0, ha0, _, _, h' | h'⟩ := mem_marked (hf1 a ha)
      · rw [h'.2] at hac
        cases hac
        exact absurd rfl hne
      · rw [h'.2] at hac ⊢
        obtain ⟨cl, hcl, h3⟩ := h2 a0 ha0 hac
        exact ⟨cl, hf2 cl hcl, h3⟩
  · -- the new one
    simp only [List.mem_singleton, Prod.mk.injEq] at hm
    obtain ⟨rfl, rfl⟩ := hm
    have hS : ∀ id ∈ todoOf v s', .stopping id ∉ (marked v c' s').log := by
      intro id hid hst
      obtain ⟨a, ha, has, hai⟩ := mem_todoOf.mp hid
      obtain ⟨_, b, _, _, hL⟩ := active_phase hi ha
      rw [hai, has] at hL
      have hst' : .stopping id ∈ v.log := by simpa [marked] using hst
      have hstd : .started id s' b ∈ v.log := by
        have : Rec.started id s' b ∈ ownL id v.log := by rw [hL]; simp
        exact (List.mem_filter.mp this).1
      have := hn v.log lw (by rw [hlw]; simp) id b hstd hst'
      have : Rec.ended id ∈ ownL id v.log := by simp [this, about]
      rw [hL] at this
      simp at this
    by_cases htodo : todoOf v s' = []
    · constructor
      · left
        rw [clean_eq, if_pos htodo]
        simp [Node.notify]
      · intro a ha hac
        obtain ⟨a0, ha0, _, _, h' | h'⟩ := mem_marked (hf1 a ha)
        · have : a0.id ∈ todoOf v s' := mem_todoOf.mpr ⟨a0, ha0, h'.1, rfl⟩
          rw [htodo] at this; cases this
        · rw [h'.2] at hac
          exact absurd (hk a0 ha0 _ hac) (hnew _)
    · obtain ⟨r1, r2⟩ := hlive hS (by
        intro a ha hac
        obtain ⟨a0, ha0, hid, _, h' | h'⟩ := mem_marked ha
        · left; rw [hid]; exact mem_todoOf.mpr ⟨a0, ha0, h'.1, rfl⟩
        · rw [h'.2] at hac
          exact absurd (hk a0 ha0 _ hac) (hnew _)) (.inl htodo)
      refine ⟨?_, r1⟩
      rcases r2 with r2 | r2
      · exact .inl (hnot _ r2)
      · exact .inr r2

theorem MarkOK.plain {v v' : Node} (h : MarkOK v) {l : List Rec} (hl : v'.log = v.log ++ l)
    (hA : ∀ a' ∈ v'.active, a' ∈ v.active ∨ a'.cleaned = none) : MarkOK v' := by
  intro a ha c hc
  rw [hl, begunOf_append]
  rcases hA a ha with h' | h'
  · exact List.mem_append_left _ (h a h' c hc)
  · rw [h'] at hc; cases hc

theorem clean_mark {v : Node} (hi : Inv v) (hk : MarkOK v) (c s : Nat) : MarkOK (v.clean c s) := by
  have hff := fold_frame _ _ (marked_fold hi c s)
  generalize hw : (todoOf v s).foldl (fun v id => v.cleanTask c id) (marked v c s) = w at hff
  obtain ⟨hf1, hf2, lf, hf3, hf4⟩ := hff
  have hbw : begunOf w.log = begunOf v.log ++ [(c, s)] ++ begunOf lf := by
    rw [hf3, begunOf_append]
    simp [marked, begunOf]
  have hbase : MarkOK w := by
    intro a ha c' hc'
    rw [hbw]
    apply List.mem_append_left
    obtain ⟨a0, ha0, _, hses, h' | h'⟩ := mem_marked (hf1 a ha)
    · rw [h'.2] at hc'
      cases hc'
      rw [hses, h'.1]; simp
    · rw [h'.2] at hc' ⊢
      exact List.mem_append_left _ (hk a0 ha0 c' hc')
  rw [clean_eq, hw]
  split
  · exact hbase.plain (l := [.notified c]) rfl (fun a ha => .inl ha)
  · exact hbase

theorem step_live {v : Node} (hi : Inv v) (hk : MarkOK v) (h : Live v) (e : Ev)
    (hnd : ((begunOf (step v e).log).map (·.1)).Nodup) : MarkOK (step v e) ∧ Live (step v e) := by
  have halt : ∀ {v' id}, Halts v v' id → MarkOK v' := by
    rintro v' id (rfl | ⟨ha, hl, _⟩)
    · exact hk
    · exact hk.plain hl (fun a h' => .inl (ha ▸ h'))
  cases e with
  | start s b =>
    have hA : ∀ a ∈ (v.start s b).active, a ∈ v.active ∨ a.cleaned = none := by
      intro a ha
      simp only [Node.start, List.mem_append, List.mem_singleton] at ha
      rcases ha with ha | rfl
      · exact .inl ha
      · exact .inr rfl
    exact ⟨hk.plain (l := [.started v.next s b]) rfl hA,
      h.plain (l := [.started v.next s b]) rfl (by simp) hA (fun cl h => h)⟩
  | ready id =>
    simp only [step]
    rcases ready_cases hi id with he | ⟨b, _, hA, hC, hL⟩
    · rw [he]; exact ⟨hk, h⟩
    · have hA' : ∀ a ∈ (v.ready id).active, a ∈ v.active ∨ a.cleaned = none := by
        intro a ha; rw [hA] at ha; exact .inl (List.mem_filter.mp ha).1
      refine ⟨hk.plain hL hA', h.plain hL ?_ hA' (fun cl h => by rw [hC]; exact h)⟩
      intro c s hm
      rcases List.mem_append.mp hm with hm | hm
      · simp at hm
      · cases mem_unblocks hm
  | stop id => exact ⟨halt (stop_cases hi id), halts_live h (stop_cases hi id)⟩
  | despawn id => exact ⟨halt (despawn_cases hi id), halts_live h (despawn_cases hi id)⟩
  | clean c s => exact ⟨clean_mark hi hk c s, clean_live hi hk h c s hnd⟩
  | done k =>
    refine ⟨?_, done_live hi h k⟩
    simp only [step]
    rcases done_cases hi k with he | ⟨cl, _, _, hA, _, hL⟩
    · rw [he]; exact hk
    · refine hk.plain hL ?_
      intro a ha; rw [hA] at ha; exact .inl (List.mem_filter.mp ha).1

theorem run_live : ∀ (es : List Ev) {v : Node}, Inv v → MarkOK v → Live v →
    ((begunOf (run v es).log).map (·.1)).Nodup → Live (run v es)
  | [], _, _, _, h, _ => h
  | e :: es, v, hi, hk, h, hno => by
    have hi' := step_inv hi e
    obtain ⟨l, hl⟩ := run_log es hi'
    have hno' : ((begunOf (step v e).log).map (·.1)).Nodup := by
      have h1 : ((begunOf (run (step v e) es).log).map (·.1)).Nodup := hno
      rw [hl, begunOf_append, List.map_append] at h1
      exact (List.nodup_append.mp h1).1
    obtain ⟨hk', h'⟩ := step_live hi hk h e hno'
    exact run_live es hi' hk' h' hno

end Verif.Task
