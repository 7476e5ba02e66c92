import Verif.Gone.Dispatch

/-
When a request may be disposed of as undeliverable, and the invariants of the queue of
requests that are dispatched inside of others.
-/
namespace Verif.Gone.Dispatch

/-- The removals of an event. -/
def Ev.removes (s : Nat) : Ev → Prop
  | .arrive .. => False
  | .remove x => x = s
  | .execute _ scripts => ∃ l ∈ scripts, .remove s ∈ l

/-- A service that is never removed. -/
def Stays (es : List Ev) (s : Nat) : Prop := ∀ e ∈ es, ¬ e.removes s

/-- Every request that is dispatched inside of another one is for the service of that other
one, or for a service that is never removed. -/
def Tame (svc : Nat → Nat) (es : List Ev) : Prop :=
  ∀ node scripts, .execute node scripts ∈ es → ∀ l ∈ scripts, ∀ n, .execute n ∈ l →
    svc n = svc node ∨ Stays es (svc n)

/-- The full claim: a request is disposed of as undeliverable only if its service was
removed. -/
def C92_Full : Prop := ∀ (svc : Nat → Nat) (es : List Ev) (node session : Nat),
  .unavailable node session ∈ (run svc es).log → (run svc es).present (svc node) = false

section
variable (svc : Nat → Nat)

/-- What is kept: whoever is disposed of has lost the service, and services that stay are
present. -/
structure Ok (P : Nat → Prop) (d : D) : Prop where
  absent : ∀ n s, .unavailable n s ∈ d.log → d.present (svc n) = false
  stay : ∀ s, P s → d.present s = true

/-- The queue holds requests for the outer service or for services that stay. -/
def QueueOk (P : Nat → Prop) (outer : Nat) (d : D) : Prop :=
  ∀ p ∈ d.queue, p.provider = outer ∨ P p.provider

theorem act_ok {P : Nat → Prop} {d : D} {a : Act} (h : Ok svc P d)
    (ha : ∀ s, a = .remove s → ¬ P s) : Ok svc P (act svc d a) := by
  cases a with
  | arrive n s =>
    refine ⟨fun m x hx => h.absent m x ?_, h.stay⟩
    simpa [act] using hx
  | remove s =>
    refine ⟨fun n x hx => ?_, fun x hx => ?_⟩
    · simp only [act]
      split
      · rfl
      · exact h.absent n x hx
    · simp only [act]
      rw [if_neg (fun (he : x = s) => ha s rfl (he ▸ hx))]
      exact h.stay x hx
  | execute n => exact ⟨h.absent, h.stay⟩

theorem act_queue {P : Nat → Prop} {outer : Nat} {d : D} {a : Act} (h : QueueOk P outer d)
    (ha : ∀ n, a = .execute n → svc n = outer ∨ P (svc n)) : QueueOk P outer (act svc d a) := by
  cases a with
  | arrive n s => exact h
  | remove s => exact h
  | execute n =>
    intro p hp
    rcases List.mem_append.1 hp with hp | hp
    · exact h p hp
    · rw [List.mem_singleton.1 hp]
      exact ha n rfl

theorem acts_ok {P : Nat → Prop} {outer : Nat} (l : List Act) : ∀ {d : D}, Ok svc P d →
    QueueOk P outer d → (∀ s, .remove s ∈ l → ¬ P s) →
    (∀ n, .execute n ∈ l → svc n = outer ∨ P (svc n)) →
    Ok svc P (l.foldl (act svc) d) ∧ QueueOk P outer (l.foldl (act svc) d) := by
  induction l with
  | nil => intro d h hq _ _; exact ⟨h, hq⟩
  | cons a l ih =>
    intro d h hq h1 h2
    refine ih (act_ok svc h ?_) (act_queue svc hq ?_) (fun s hs => h1 s (.tail _ hs))
      (fun n hn => h2 n (.tail _ hn))
    · rintro s rfl
      exact h1 s (List.mem_cons_self ..)
    · rintro n rfl
      exact h2 n (List.mem_cons_self ..)

theorem loop_ok {P : Nat → Prop} (outer : Nat) : ∀ (fuel : Nat) (scripts : List (List Act)) (d : D),
    Ok svc P d → QueueOk P outer d →
    (∀ l ∈ scripts, (∀ s, .remove s ∈ l → ¬ P s) ∧
      ∀ n, .execute n ∈ l → svc n = outer ∨ P (svc n)) →
    Ok svc P (loop svc outer fuel scripts d) := by
  intro fuel
  induction fuel with
  | zero => intro scripts d h _ _; exact h
  | succ fuel ih =>
    intro scripts d h hq hs
    unfold loop
    split
    · exact ⟨h.absent, h.stay⟩
    · rename_i p hp
      have hq' : QueueOk P outer { d with queue := d.queue.dropLast } :=
        fun x hx => hq x (List.dropLast_subset _ hx)
      dsimp only
      split
      · split
        · exact ih scripts _ ⟨h.absent, h.stay⟩ hq' hs
        · rename_i i hi
          have hok : Ok svc P { d with
              queue := d.queue.dropLast
              inputs := d.inputs.erase i
              log := d.log ++ [.served i.1 i.2] } := by
            refine ⟨fun n s hx => ?_, h.stay⟩
            refine h.absent n s ?_
            simpa using hx
          have hhead : (∀ s, .remove s ∈ scripts.head?.getD [] → ¬ P s) ∧
              ∀ n, .execute n ∈ scripts.head?.getD [] → svc n = outer ∨ P (svc n) := by
            cases scripts with
            | nil => simp
            | cons l ls => exact hs l (List.mem_cons_self ..)
          obtain ⟨r1, r2⟩ := acts_ok svc (outer := outer) _ hok hq' hhead.1 hhead.2
          exact ih _ _ r1 r2 fun l hl => hs l (List.mem_of_mem_tail hl)
      · rename_i hpres
        have hout : p.provider = outer := by
          rcases hq p (List.mem_of_getLast? hp) with he | he
          · exact he
          · exact absurd (h.stay _ he) hpres
        refine ih scripts _ ⟨fun n s hx => ?_, h.stay⟩ hq' hs
        simp only [disposeFor] at hx
        rcases List.mem_append.1 hx with hx | hx
        · exact h.absent n s hx
        · obtain ⟨i, hi, he⟩ := List.mem_map.1 hx
          cases he
          have := (List.mem_filter.1 hi).2
          simp only [beq_iff_eq] at this
          simp only [disposeFor, this, ← hout]
          simpa using hpres

theorem loop_idle (outer : Nat) : ∀ (fuel : Nat) (scripts : List (List Act)) (d : D),
    d.queue.length + (scripts.map List.length).sum < fuel →
    (loop svc outer fuel scripts d).queue = [] ∧
      (loop svc outer fuel scripts d).delivering = false := by
  have hact : ∀ (l : List Act) (d : D), (l.foldl (act svc) d).queue.length ≤ d.queue.length + l.length := by
    intro l
    induction l with
    | nil => intro d; simp
    | cons a l ih =>
      intro d
      have := ih (act svc d a)
      have h1 : (act svc d a).queue.length ≤ d.queue.length + 1 := by
        cases a <;> simp [act]
      simp only [List.foldl_cons, List.length_cons]
      omega
  intro fuel
  induction fuel with
  | zero => intro scripts d h; omega
  | succ fuel ih =>
    intro scripts d h
    unfold loop
    split
    · rename_i hn
      exact ⟨List.getLast?_eq_none_iff.1 hn, rfl⟩
    · rename_i p hp
      have hpos : 0 < d.queue.length := List.length_pos_of_mem (List.mem_of_getLast? hp)
      have hlen : d.queue.dropLast.length = d.queue.length - 1 := List.length_dropLast
      dsimp only
      split
      · split
        · exact ih scripts _ (by dsimp only; omega)
        · rename_i i hi
          refine ih _ _ ?_
          refine Nat.lt_of_le_of_lt (Nat.add_le_add_right (hact _ _) _) ?_
          dsimp only
          rw [hlen]
          cases scripts with
          | nil => simp at h ⊢; omega
          | cons l ls => simp at h ⊢; omega
      · exact ih scripts _ (by simp only [disposeFor]; omega)

/-- Every request that was made is waiting, was served, or was disposed of. -/
def Counted (d : D) : Prop := ∀ n s, d.log.count (.arrived n s) =
  d.inputs.count (n, s) + d.log.count (.served n s) + d.log.count (.unavailable n s)

theorem act_counted {d : D} (h : Counted d) (a : Act) : Counted (act svc d a) := by
  cases a with
  | arrive n s =>
    intro m x
    have := h m x
    simp only [act, List.count_append, List.count_singleton]
    by_cases he : n = m ∧ s = x
    · obtain ⟨rfl, rfl⟩ := he
      simp
      omega
    · have h1 : ((n, s) == (m, x)) = false := by simpa using he
      simp only [h1]
      simp [he]
      omega
  | remove s => exact h
  | execute n => exact h

theorem acts_counted (l : List Act) : ∀ {d : D}, Counted d → Counted (l.foldl (act svc) d) := by
  induction l with
  | nil => intro d h; exact h
  | cons a l ih => intro d h; exact ih (act_counted svc h a)

theorem disposeFor_counted {d : D} (h : Counted d) (service : Nat) :
    Counted (disposeFor svc service d) := by
  have hz : ∀ (x : Rec) (l : List (Nat × Nat)), (∀ n s, x ≠ .unavailable n s) →
      (l.map fun i => Rec.unavailable i.1 i.2).count x = 0 := by
    intro x l hx
    rw [List.count_eq_zero]
    intro hm
    obtain ⟨a, _, ha⟩ := List.mem_map.1 hm
    exact hx _ _ ha.symm
  have hc : ∀ (n s : Nat) (l : List (Nat × Nat)),
      (l.map fun i => Rec.unavailable i.1 i.2).count (.unavailable n s) = l.count (n, s) := by
    intro n s l
    induction l with
    | nil => rfl
    | cons a l ih =>
      obtain ⟨a, b⟩ := a
      simp only [List.map_cons, List.count_cons, ih]
      by_cases h : a = n ∧ b = s
      · obtain ⟨rfl, rfl⟩ := h; simp
      · have h1 : ((a, b) == (n, s)) = false := by simpa using h
        have h2 : (Rec.unavailable a b == Rec.unavailable n s) = false := by simpa using h
        rw [h1, h2]
  have hs : ∀ (i : Nat × Nat) (l : List (Nat × Nat)),
      (l.filter fun i => svc i.1 != service).count i +
        (l.filter fun i => svc i.1 == service).count i = l.count i := by
    intro i l
    induction l with
    | nil => rfl
    | cons a l ih =>
      by_cases hp : svc a.1 = service <;> simp [List.filter_cons, hp, List.count_cons] <;> omega
  intro n s
  have h0 := h n s
  have h1 := hs (n, s) d.inputs
  simp only [disposeFor, List.count_append, hc]
  rw [hz (.arrived n s) _ (by simp), hz (.served n s) _ (by simp)]
  omega

theorem loop_counted (outer : Nat) : ∀ (fuel : Nat) (scripts : List (List Act)) (d : D),
    Counted d → Counted (loop svc outer fuel scripts d) := by
  intro fuel
  induction fuel with
  | zero => intro scripts d h; exact h
  | succ fuel ih =>
    intro scripts d h
    unfold loop
    split
    · exact h
    · rename_i p hp
      dsimp only
      split
      · split
        · exact ih _ _ h
        · rename_i i hi
          refine ih _ _ (acts_counted svc _ ?_)
          have hmem := List.mem_of_find?_eq_some hi
          intro n s
          have h0 := h n s
          simp only [List.count_append, List.count_singleton]
          rw [List.count_erase]
          obtain ⟨a, b⟩ := i
          by_cases he : a = n ∧ b = s
          · obtain ⟨rfl, rfl⟩ := he
            have := List.count_pos_iff.2 hmem
            simp
            omega
          · have h1 : ((a, b) == (n, s)) = false := by simpa using he
            rw [h1]
            simp [he]
            omega
      · exact ih _ _ (disposeFor_counted svc (d := { d with queue := d.queue.dropLast }) h _)

theorem run_counted (es : List Ev) : Counted (run svc es) := by
  have : ∀ (es : List Ev) (d : D), Counted d → Counted (es.foldl (step svc) d) := by
    intro es
    induction es with
    | nil => intro d h; exact h
    | cons e es ih =>
      intro d h
      refine ih _ ?_
      cases e with
      | arrive n s => exact act_counted svc h _
      | remove s => exact act_counted svc h (.remove s)
      | execute node scripts =>
        simp only [step, dispatch]
        split
        · exact h
        · exact loop_counted svc _ _ _ _ h
  exact this es _ fun n s => rfl

/-- Between events nothing is being dispatched. -/
theorem run_idle (es : List Ev) : (run svc es).queue = [] ∧ (run svc es).delivering = false := by
  have : ∀ (es : List Ev) (d : D), d.queue = [] ∧ d.delivering = false →
      (es.foldl (step svc) d).queue = [] ∧ (es.foldl (step svc) d).delivering = false := by
    intro es
    induction es with
    | nil => intro d h; exact h
    | cons e es ih =>
      intro d h
      refine ih _ ?_
      cases e with
      | arrive n s => exact h
      | remove s => exact h
      | execute node scripts =>
        simp only [step, dispatch, h.2, Bool.false_eq_true, if_false]
        refine loop_idle svc _ _ _ _ ?_
        simp only [h.1, List.nil_append, List.length_singleton, fuelFor, List.length_nil]
        omega
  exact this es _ ⟨rfl, rfl⟩

end

end Verif.Gone.Dispatch
