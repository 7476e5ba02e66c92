import Verif.Task.Spec
set_option linter.unusedSimpArgs false
set_option linter.unusedVariables false
set_option linter.unnecessarySimpa false
namespace Verif.Task

/-! ### Entries that belong to one task -/

/-- The entries of a list that belong to `id`. -/
def own {α : Type} (f : α → Nat) (id : Nat) (l : List α) : List α := l.filter (fun x => f x == id)

section
variable {α : Type} {f : α → Nat}

theorem own_nil (id) : own f id ([] : List α) = [] := rfl

theorem own_append (id) (l l' : List α) : own f id (l ++ l') = own f id l ++ own f id l' := by
  simp [own]

theorem own_single_self (x : α) : own f (f x) [x] = [x] := by simp [own]

theorem own_single {id} {x : α} (h : f x = id) : own f id [x] = [x] := by simp [own, h]

theorem own_single_ne {id} {x : α} (h : f x ≠ id) : own f id [x] = [] := by simp [own, h]

theorem own_remove_self (id) (l : List α) : own f id (l.filter (fun x => f x != id)) = [] := by
  simp only [own, List.filter_filter]
  rw [List.filter_eq_nil_iff]
  intro x _
  simp
  
theorem own_remove_ne {id j} (h : j ≠ id) (l : List α) :
    own f j (l.filter (fun x => f x != id)) = own f j l := by
  simp only [own, List.filter_filter]
  apply List.filter_congr
  intro x _
  by_cases hx : f x = j
  · simp [hx, h]
  · simp [hx]

theorem own_map {g : α → α} (hg : ∀ x, f (g x) = f x) (id) (l : List α) :
    own f id (l.map g) = (own f id l).map g := by
  induction l with
  | nil => rfl
  | cons x l ih =>
    simp only [own, List.map_cons, List.filter_cons, hg] at ih ⊢
    split <;> simp [ih]

theorem own_map_ne {g : α → α} {id j} (hj : j ≠ id) (hg : ∀ x, f (g x) = f x)
    (hne : ∀ x, f x ≠ id → g x = x) (l : List α) : own f j (l.map g) = own f j l := by
  rw [own_map hg]
  conv => rhs; rw [← List.map_id (own f j l)]
  apply List.map_congr_left
  intro x hx
  have : f x = j := by simpa [own] using (List.mem_filter.mp hx).2
  exact hne x (by rw [this]; exact hj)

theorem mem_own {id} {x : α} {l : List α} : x ∈ own f id l ↔ x ∈ l ∧ f x = id := by
  simp [own]

theorem own_find (id) (l : List α) : l.find? (fun x => f x == id) = (own f id l).head? := by
  simp [own, List.head?_filter]

theorem own_eraseIdx_ne {l : List α} {k : Nat} {x : α} (hk : l[k]? = some x) {j : Nat}
    (hj : j ≠ f x) : own f j (l.eraseIdx k) = own f j l := by
  induction l generalizing k with
  | nil => simp at hk
  | cons y l ih =>
    cases k with
    | zero =>
      simp only [List.getElem?_cons_zero, Option.some.injEq] at hk
      subst hk
      simp [own, List.filter_cons, Ne.symm hj]
    | succ k =>
      simp only [List.getElem?_cons_succ] at hk
      have := ih hk
      simp only [own, List.eraseIdx_cons_succ, List.filter_cons] at this ⊢
      rw [this]

theorem own_eraseIdx_self {l : List α} {k : Nat} {x : α} (hk : l[k]? = some x)
    (h : own f (f x) l = [x]) : own f (f x) (l.eraseIdx k) = [] := by
  induction l generalizing k with
  | nil => simp at hk
  | cons y l ih =>
    cases k with
    | zero =>
      simp only [List.getElem?_cons_zero, Option.some.injEq] at hk
      subst hk
      simpa [own, List.filter_cons] using h
    | succ k =>
      simp only [List.getElem?_cons_succ] at hk
      have hx : x ∈ l := List.mem_of_getElem? hk
      simp only [own, List.eraseIdx_cons_succ, List.filter_cons] at h ih ⊢
      by_cases hy : f y = f x
      · simp only [hy, beq_self_eq_true, if_true, List.cons.injEq] at h
        have hmem : x ∈ l.filter (fun z => f z == f x) := by simp [hx]
        rw [h.2] at hmem
        cases hmem
      · simp only [beq_iff_eq, hy, if_false] at h ⊢
        exact ih hk h

end

local notation "ownE" => own Ent.id
local notation "ownA" => own Active.id
local notation "ownC" => own Closure.id

/-- The records about the progress of a task. -/
def about (id : Nat) : Rec → Bool
  | .started j _ _ => j == id
  | .responded j => j == id
  | .disposed j => j == id
  | .ended j => j == id
  | .unblocked j => j == id
  | .stopping _ => false
  | .begun _ _ => false
  | .notified _ => false

abbrev ownL (id : Nat) (l : List Rec) : List Rec := l.filter (about id)

/-! ### The effect of the functions of the model -/

/-- Dropping the component of the task has no effect. -/
def Quiet (v : Node) (id : Nat) : Prop :=
  ∀ e ∈ ownE id v.ents, ∀ op, e.op = some op → op.finished = true

theorem despawn_quiet {v : Node} {id : Nat} (h : Quiet v id) :
    v.despawn id = { v with ents := v.ents.filter (fun e => e.id != id) } := by
  unfold Node.despawn
  rw [own_find]
  cases hE : ownE id v.ents with
  | nil =>
    simp only [List.head?_nil]
    have : v.ents.filter (fun e => e.id != id) = v.ents := by
      rw [List.filter_eq_self]
      intro e he
      have hn : e ∉ own Ent.id id v.ents := by rw [hE]; simp
      rw [mem_own] at hn
      simp only [bne_iff_ne, ne_eq]
      exact fun hid => hn ⟨he, hid⟩
    rw [this]
  | cons e l =>
    simp only [List.head?_cons]
    cases hop : e.op with
    | none => rfl
    | some op =>
      have := h e (by rw [hE]; exact List.mem_cons_self) op hop
      simp [Node.dropOp, this]

/-- The notification at the end of `cleanup_task`. -/
def notifs (active : List Active) (id : Nat) : Option Nat → List Rec
  | none => []
  | some c => if cleanupReady active id c then [.notified c] else []

def unblocks (id : Nat) (b : Bool) : List Rec := if b then [.unblocked id] else []

theorem cleanupTask_quiet {v : Node} {id : Nat} (h : Quiet v id) (b : Bool) (c : Option Nat) :
    v.cleanupTask id b c = { v with
      ents := v.ents.filter (fun e => e.id != id)
      active := v.active.filter (fun a => a.id != id)
      log := v.log ++ unblocks id b ++ notifs v.active id c } := by
  unfold Node.cleanupTask
  cases c with
  | none =>
    cases b
    · simp only [Bool.false_eq_true, if_false]
      rw [despawn_quiet (by exact h)]
      simp [unblocks, notifs]
    · simp only [if_true]
      rw [despawn_quiet (by exact h)]
      simp [unblocks, notifs]
  | some c =>
    cases b
    · simp only [Bool.false_eq_true, if_false, Node.notify]
      split
      · rw [despawn_quiet (by exact h)]
        simp [unblocks, notifs, *]
      · rw [despawn_quiet (by exact h)]
        simp [unblocks, notifs, *]
    · simp only [if_true, Node.notify]
      split
      · rw [despawn_quiet (by exact h)]
        simp [unblocks, notifs, *]
      · rw [despawn_quiet (by exact h)]
        simp [unblocks, notifs, *]

theorem ownL_unblocks_self (id b) : ownL id (unblocks id b) = unblocks id b := by
  cases b <;> simp [unblocks, about]

theorem ownL_unblocks_ne {id j} (h : j ≠ id) (b) : ownL j (unblocks id b) = [] := by
  cases b <;> simp [unblocks, about, Ne.symm h]

theorem ownL_notifs (j active id c) : ownL j (notifs active id c) = [] := by
  cases c with
  | none => rfl
  | some c => unfold notifs; split <;> simp [about]

/-! ### Phases -/

/-- The four projections of a state onto one task. -/
def Proj (v : Node) (id : Nat) (E : List Ent) (A : List Active) (C : List Closure)
    (L : List Rec) : Prop :=
  ownE id v.ents = E ∧ ownA id v.active = A ∧ ownC id v.closures = C ∧ ownL id v.log = L

/-- The cleanup `c` of the session was begun after the task had started. -/
def Begun (v : Node) (id s : Nat) (c : Nat) : Prop := StartedBefore v.log id s c

/-- Where a task is in its life. -/
inductive Phase (v : Node) (id s : Nat) (b : Bool) : Prop where
  | running (h : Proj v id [⟨id, s, some ⟨b, true, none, false⟩⟩] [⟨id, s, none⟩] []
      [.started id s b])
  /-- being cleaned up, component in place -/
  | cleaning (c : Nat) (h : Proj v id [⟨id, s, some ⟨false, false, some c, true⟩⟩]
      [⟨id, s, some c⟩] [⟨id, s, b, some c, false⟩] [.started id s b]) (hb : Begun v id s c)
  /-- being cleaned up, component or entity gone -/
  | cleaningBare (c : Nat) (x : Option Nat) (E : List Ent) (hE : E = [⟨id, s, none⟩] ∨ E = [])
      (h : Proj v id E [⟨id, s, x⟩] [⟨id, s, b, some c, false⟩] [.started id s b])
      (hb : Begun v id s c) (hs : .stopping id ∈ v.log)
  /-- stopped or despawned -/
  | stopping (x : Option Nat) (E : List Ent) (hE : E = [⟨id, s, none⟩] ∨ E = [])
      (h : Proj v id E [⟨id, s, x⟩] [⟨id, s, b, none, true⟩] [.started id s b])
      (hs : .stopping id ∈ v.log)
  /-- cleaned up a second time -/
  | ghost (c : Nat) (h : Proj v id [] [] [⟨id, s, b, some c, false⟩] [.started id s b])
      (hb : Begun v id s c)
  | responded (h : Proj v id [] [] []
      ([.started id s b, .ended id, .responded id] ++ unblocks id b))
  | disposed (h : Proj v id [] [] [] ([.started id s b, .ended id] ++ unblocks id b ++
      [.disposed id]))
  | cleaned (c : Nat) (h : Proj v id [] [] [] ([.started id s b, .ended id] ++ unblocks id b))
      (hb : Begun v id s c)

theorem StartedBefore.append {log id s c} (h : StartedBefore log id s c) (l : List Rec) :
    StartedBefore (log ++ l) id s c := by
  obtain ⟨l1, l2, hl, b, hb⟩ := h
  exact ⟨l1, l2 ++ l, by simp [hl], b, hb⟩

/-- A task to which nothing happens stays in its phase. -/
theorem Phase.frame {v v' : Node} {id s : Nat} {b : Bool} (h : Phase v id s b)
    (hE : ownE id v'.ents = ownE id v.ents) (hA : ownA id v'.active = ownA id v.active)
    (hC : ownC id v'.closures = ownC id v.closures) {l : List Rec} (hl : v'.log = v.log ++ l)
    (hL : ownL id l = []) : Phase v' id s b := by
  have hP : ∀ {E A C L}, Proj v id E A C L → Proj v' id E A C L := by
    rintro E A C L ⟨h1, h2, h3, h4⟩
    refine ⟨hE.trans h1, hA.trans h2, hC.trans h3, ?_⟩
    rw [hl, ownL, List.filter_append]
    simp only [ownL] at hL h4
    rw [hL, List.append_nil, h4]
  have hB : ∀ {c}, Begun v id s c → Begun v' id s c := by
    intro c hb
    unfold Begun
    rw [hl]
    exact hb.append l
  have hS : Rec.stopping id ∈ v.log → Rec.stopping id ∈ v'.log := by
    intro hs; rw [hl]; exact List.mem_append_left _ hs
  cases h with
  | running h => exact .running (hP h)
  | cleaning c h hb => exact .cleaning c (hP h) (hB hb)
  | cleaningBare c x E hE h hb hs => exact .cleaningBare c x E hE (hP h) (hB hb) (hS hs)
  | stopping x E hE h hs => exact .stopping x E hE (hP h) (hS hs)
  | ghost c h hb => exact .ghost c (hP h) (hB hb)
  | responded h => exact .responded (hP h)
  | disposed h => exact .disposed (hP h)
  | cleaned c h hb => exact .cleaned c (hP h) (hB hb)

/-- The invariant: each task is in one phase. -/
structure Inv (v : Node) : Prop where
  old : ∀ id, id < v.next → ∃ s b, Phase v id s b
  new : ∀ id, v.next ≤ id → Proj v id [] [] [] [] ∧ .stopping id ∉ v.log

theorem Phase.no_op_quiet {v : Node} {id : Nat} {E : List Ent} {s : Nat}
    (hE : ownE id v.ents = E) (h : E = [⟨id, s, none⟩] ∨ E = []) : Quiet v id := by
  intro e he op hop
  rw [hE] at he
  rcases h with rfl | rfl
  · simp at he; subst he; cases hop
  · cases he

end Verif.Task
