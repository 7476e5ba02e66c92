import Verif.Fork.Runs

/- C35, C38. -/
namespace Verif.Fork

open Verif.Input

variable {V : Type}

/-- C35: a message into a result fork goes unchanged, in its session, to the branch of its
variant and nowhere else, and one disposal names the other branch. (In a session that is no
longer active nothing is delivered anywhere.) -/
theorem C35_result (w : World V) (source a b : Nat) (view : V → Except V V)
    (i : Inp Nat V) (rest : List (Inp Nat V)) (hin : w.inbox source = i :: rest)
    (ha : w.Accepts a) (hb : w.Accepts b) :
    (∀ v, view i.data = .ok v →
      ∃ w', exec (.result view [a, b]) source w = (w', none) ∧
        Delivered w w' source i.session (if w.active i.session then [(a, v)] else [])
          [.branching b]) ∧
    (∀ e, view i.data = .error e →
      ∃ w', exec (.result view [a, b]) source w = (w', none) ∧
        Delivered w w' source i.session (if w.active i.session then [(b, e)] else [])
          [.branching a]) := by
  obtain ⟨w1, e1, d1⟩ := take_spec hin
  have hl := listens_of_inbox hin
  constructor
  · intro v hv
    obtain ⟨w2, e2, d2⟩ := activateOne_some (v := v) d1 ha
    obtain ⟨w3, e3, d3⟩ := activateOne_none d2 hb hl
    refine ⟨w3, ?_, by simpa [sentIf] using d3⟩
    simp [exec, e1, hv, branchResult, World.activate, e2, e3]
  · intro v hv
    obtain ⟨w2, e2, d2⟩ := activateOne_none d1 ha hl
    obtain ⟨w3, e3, d3⟩ := activateOne_some (v := v) d2 hb
    refine ⟨w3, ?_, by simpa [sentIf] using d3⟩
    simp [exec, e1, hv, branchResult, World.activate, e2, e3]

/-- C35: the same for an option fork. -/
theorem C35_option (w : World V) (source a b : Nat) (view : V → Option V) (unit : V)
    (i : Inp Nat V) (rest : List (Inp Nat V)) (hin : w.inbox source = i :: rest)
    (ha : w.Accepts a) (hb : w.Accepts b) :
    (∀ v, view i.data = some v →
      ∃ w', exec (.option view unit [a, b]) source w = (w', none) ∧
        Delivered w w' source i.session (if w.active i.session then [(a, v)] else [])
          [.branching b]) ∧
    (view i.data = none →
      ∃ w', exec (.option view unit [a, b]) source w = (w', none) ∧
        Delivered w w' source i.session (if w.active i.session then [(b, unit)] else [])
          [.branching a]) := by
  obtain ⟨w1, e1, d1⟩ := take_spec hin
  have hl := listens_of_inbox hin
  constructor
  · intro v hv
    obtain ⟨w2, e2, d2⟩ := activateOne_some (v := v) d1 ha
    obtain ⟨w3, e3, d3⟩ := activateOne_none d2 hb hl
    refine ⟨w3, ?_, by simpa [sentIf] using d3⟩
    simp [exec, e1, hv, branchOption, World.activate, e2, e3]
  · intro hv
    obtain ⟨w2, e2, d2⟩ := activateOne_none d1 ha hl
    obtain ⟨w3, e3, d3⟩ := activateOne_some (v := unit) d2 hb
    refine ⟨w3, ?_, by simpa [sentIf] using d3⟩
    simp [exec, e1, hv, branchOption, World.activate, e2, e3]

/-- The `ok` values of a list of messages, with their sessions, and the `error` values. -/
def oks (view : V → Except V V) (ms : List (Inp Nat V)) : List (Inp Nat V) :=
  ms.filterMap fun i => match view i.data with | .ok v => some ⟨i.session, v⟩ | .error _ => none

def errs (view : V → Except V V) (ms : List (Inp Nat V)) : List (Inp Nat V) :=
  ms.filterMap fun i => match view i.data with | .ok _ => none | .error v => some ⟨i.session, v⟩

/-- C35 for any number of messages: when a result fork has worked off its queue, the two
branches have got exactly the `ok` and exactly the `error` values, in order, and there is
one disposal per message. -/
theorem C35_all (w : World V) (source a b : Nat) (view : V → Except V V)
    (hab : a ≠ b) (hsa : a ≠ source) (hsb : b ≠ source)
    (ha : w.Listens a) (hb : w.Listens b)
    (hact : ∀ i, i ∈ w.inbox source → w.active i.session = true) :
    ∃ w', execMany (.result view [a, b]) source (w.inbox source).length w = (w', []) ∧
      w'.inbox source = [] ∧
      w'.inbox a = w.inbox a ++ oks view (w.inbox source) ∧
      w'.inbox b = w.inbox b ++ errs view (w.inbox source) ∧
      (∀ e, w.Listens e → e ≠ source → e ≠ a → e ≠ b → w'.inbox e = w.inbox e) ∧
      w'.disposals.length = w.disposals.length + (w.inbox source).length := by
  have law : StepLaw (.result view [a, b]) source (fun w => w.Accepts a ∧ w.Accepts b)
      (fun m => match view m with | .ok v => [(a, v)] | .error e => [(b, e)])
      (fun m => match view m with | .ok _ => [.branching b] | .error _ => [.branching a]) := by
    intro w i rest hok hin
    have := C35_result w source a b view i rest hin hok.1 hok.2
    cases hv : view i.data with
    | ok v => simpa [sentIf, hv] using this.1 v hv
    | error v => simpa [sentIf, hv] using this.2 v hv
  obtain ⟨w', e, hb', hs, hd⟩ := drain law
    (fun w w' h hacc _ => ⟨(hacc a).2 h.1, (hacc b).2 h.2⟩)
    (by
      intro m p hp
      cases hv : view m with
      | ok v => rw [hv] at hp; simp only [List.mem_singleton] at hp; subst hp; exact hsa
      | error v => rw [hv] at hp; simp only [List.mem_singleton] at hp; subst hp; exact hsb)
    (w.inbox source) w ⟨Or.inl ha, Or.inl hb⟩ rfl
  refine ⟨w', e, hs, ?_, ?_, ?_, ?_⟩
  · rw [hb' a ha hsa]
    congr 1
    generalize w.inbox source = ms at hact
    induction ms with
    | nil => rfl
    | cons i ms ih =>
      have hi := hact i (by simp)
      have := ih (fun j hj => hact j (by simp [hj]))
      simp only [share, List.flatMap_cons, oks, List.filterMap_cons] at this ⊢
      rw [this]
      cases hv : view i.data <;> simp [sentIf, hi, hab.symm]
  · rw [hb' b hb hsb]
    congr 1
    generalize w.inbox source = ms at hact
    induction ms with
    | nil => rfl
    | cons i ms ih =>
      have hi := hact i (by simp)
      have := ih (fun j hj => hact j (by simp [hj]))
      simp only [share, List.flatMap_cons, errs, List.filterMap_cons] at this ⊢
      rw [this]
      cases hv : view i.data <;> simp [sentIf, hi, hab]
  · intro e he hes hea heb
    rw [hb' e he hes]
    have : share w.active (fun m => match view m with | .ok v => [(a, v)] | .error e => [(b, e)])
        (w.inbox source) e = [] := by
      simp only [share, List.flatMap_eq_nil_iff, List.map_eq_nil_iff, List.filter_eq_nil_iff]
      intro i _ p hp
      unfold sentIf at hp
      split at hp
      · cases hv : view i.data with
        | ok v =>
          rw [hv] at hp; simp only [List.mem_singleton] at hp; subst hp
          simpa using fun h => hea h.symm
        | error v =>
          rw [hv] at hp; simp only [List.mem_singleton] at hp; subst hp
          simpa using fun h => heb h.symm
      · simp at hp
    rw [this]; simp
  · rw [hd]
    simp only [List.length_append, Nat.add_left_cancel_iff]
    generalize w.inbox source = ms
    induction ms with
    | nil => rfl
    | cons i ms ih =>
      simp only [List.flatMap_cons, List.length_append, ih, List.length_cons]
      cases view i.data <;> simp <;> omega

/-- C38: a fork-clone with at least one branch sends exactly one equal copy to each branch
and nothing else happens. -/
theorem C38_clone_partial (w : World V) (source : Nat) (targets : List Nat)
    (i : Inp Nat V) (rest : List (Inp Nat V)) (hin : w.inbox source = i :: rest)
    (hne : targets ≠ []) (ht : ∀ t, t ∈ targets → w.Accepts t) :
    ∃ w', exec (.clone targets) source w = (w', none) ∧
      Delivered w w' source i.session
        (if w.active i.session then targets.map fun t => (t, i.data) else []) [] := by
  obtain ⟨w1, e1, d1⟩ := take_spec hin
  obtain ⟨w2, e2, d2⟩ := forkClone_spec d1 i.data targets hne ht
  refine ⟨w2, by simp [exec, e1, e2], by simpa [sentIf] using d2⟩

/-- C38: every branch that was added to a fork-clone gets its copy: `bs` are the outputs
obtained from `clone_output` in that order. -/
theorem C38_clone_branches (w : World V) (source : Nat) (bs : List Nat)
    (i : Inp Nat V) (rest : List (Inp Nat V)) (hin : w.inbox source = i :: rest)
    (hne : bs ≠ []) (hnodup : bs.Nodup) (ht : ∀ t, t ∈ bs → w.Listens t)
    (hs : source ∉ bs) (hact : w.active i.session = true) :
    ∃ w', exec (.clone (bs.foldl addBranch [])) source w = (w', none) ∧
      (∀ t, t ∈ bs → w'.inbox t = w.inbox t ++ [i]) ∧
      (∀ t, w.Listens t → t ∉ bs → t ≠ source → w'.inbox t = w.inbox t) ∧
      w'.inbox source = rest ∧ w'.disposals = w.disposals := by
  have hb : bs.foldl addBranch [] = bs := by
    have : ∀ (bs acc : List Nat), bs.foldl addBranch acc = acc ++ bs := by
      intro bs
      induction bs with
      | nil => simp
      | cons b bs ih => intro acc; simp [ih, addBranch, List.append_assoc]
    simpa using this bs []
  rw [hb]
  obtain ⟨w', e, d⟩ := C38_clone_partial w source bs i rest hin hne (fun t h => Or.inl (ht t h))
  rw [if_pos hact] at d
  refine ⟨w', e, ?_, ?_, ?_, by simpa using d.disposals⟩
  · intro t htm
    have hts : t ≠ source := fun h => hs (h ▸ htm)
    rw [d.inbox t (ht t htm), if_neg hts]
    congr 1
    clear d e hb hne hin hs
    induction bs with
    | nil => simp at htm
    | cons b bs ih =>
      rw [List.nodup_cons] at hnodup
      rcases List.mem_cons.1 htm with rfl | hm
      · have : (List.map (fun u => (u, i.data)) bs).filter (fun p => p.1 = t) = [] := by
          rw [List.filter_eq_nil_iff]
          intro p hp
          obtain ⟨u, hu, rfl⟩ := List.mem_map.1 hp
          have : u ≠ t := fun h => hnodup.1 (h ▸ hu)
          simpa using this
        simp only [List.map_cons, List.filter_cons, decide_true, if_true, this]
        rfl
      · have hbt : b ≠ t := fun h => hnodup.1 (h ▸ hm)
        simp only [List.map_cons, List.filter_cons, hbt, decide_false, Bool.false_eq_true, if_false]
        exact ih hnodup.2 (fun u hu => ht u (by simp [hu])) hm
  · intro t hl htm hts
    rw [d.inbox t hl, if_neg hts]
    have : (List.map (fun u => (u, i.data)) bs).filter (fun p => p.1 = t) = [] := by
      rw [List.filter_eq_nil_iff]
      intro p hp
      obtain ⟨u, hu, rfl⟩ := List.mem_map.1 hp
      have : u ≠ t := fun h => htm (h ▸ hu)
      simpa using this
    rw [this]; simp
  · rw [d.inbox source (listens_of_inbox hin), if_pos rfl, hin]
    have : (List.map (fun u => (u, i.data)) bs).filter (fun p => p.1 = source) = [] := by
      rw [List.filter_eq_nil_iff]
      intro p hp
      obtain ⟨u, hu, rfl⟩ := List.mem_map.1 hp
      have : u ≠ source := fun h => hs (h ▸ hu)
      simpa using this
    rw [this]; simp

/-- C38 fails without a branch: a fork-clone nobody connected to panics on its first
message. -/
theorem C38_no_branch_violated (w : World V) (source : Nat) (i : Inp Nat V)
    (rest : List (Inp Nat V)) (hin : w.inbox source = i :: rest) :
    (exec (.clone []) source w).2 = some .panic := by
  obtain ⟨w1, e1, _⟩ := take_spec hin
  simp [exec, e1, World.forkClone]

/-- C38: unzip sends the i-th element to the i-th output. -/
theorem C38_unzip (w : World V) (source : Nat) (view : V → List V) (targets : List Nat)
    (i : Inp Nat V) (rest : List (Inp Nat V)) (hin : w.inbox source = i :: rest)
    (hlen : (view i.data).length = targets.length) (ht : ∀ t, t ∈ targets → w.Accepts t) :
    ∃ w' out, exec (.unzip targets.length view targets) source w = (w', none) ∧
      Delivered w w' source i.session out [] ∧
      (w.active i.session = false → out = []) ∧
      (w.active i.session = true → out.length = targets.length ∧
        ∀ k (h : k < out.length) (h1 : k < targets.length) (h2 : k < (view i.data).length),
          out[k] = (targets[k], (view i.data)[k])) := by
  obtain ⟨w1, e1, d1⟩ := take_spec hin
  obtain ⟨w2, e2, g2⟩ := distribute_spec i.session ((targets.take targets.length).zip (view i.data))
    w1 (by
      intro p hp
      have := (List.of_mem_zip hp).1
      rw [List.take_length] at this
      exact (d1.accepts p.1).2 (ht p.1 this))
  refine ⟨w2, sentIf (w1.active i.session) ((targets.take targets.length).zip (view i.data)),
    ?_, ?_, ?_, ?_⟩
  · simp only [exec, e1, World.unzip, Nat.lt_irrefl, if_false, e2]
  · simpa using d1.gave g2
  · intro h; simp [sentIf, d1.active, h]
  · intro h
    have hact : w1.active i.session = true := by rw [d1.active]; exact h
    refine ⟨?_, ?_⟩
    · simp [sentIf, hact, hlen]
    · intro k hk h1 h2
      simp [sentIf, hact]

/-- C38: spread sends every element in order; with no element there is one disposal
instead. -/
theorem C38_spread (w : World V) (source target : Nat) (view : V → List V)
    (i : Inp Nat V) (rest : List (Inp Nat V)) (hin : w.inbox source = i :: rest)
    (ht : w.Accepts target) :
    ∃ w', exec (.spread view target) source w = (w', none) ∧
      Delivered w w' source i.session
        (if w.active i.session then (view i.data).map fun v => (target, v) else [])
        (if view i.data = [] then [.emptySpread] else []) := by
  obtain ⟨w1, e1, d1⟩ := take_spec hin
  obtain ⟨n, hn⟩ := accepts_some ((d1.accepts target).2 ht)
  obtain ⟨w2, e2, g2⟩ := giveAll_spec i.session ((view i.data).map fun v => (target, v)) w1 (by
    intro p hp
    obtain ⟨v, _, rfl⟩ := List.mem_map.1 hp
    exact (d1.accepts target).2 ht)
  rw [d1.active] at g2
  have d2 := d1.gave g2
  by_cases hv : view i.data = []
  · refine ⟨w2.dispose source i.session .emptySpread, ?_, ?_⟩
    · simp only [exec, e1, World.spread, hn, e2]
      simp [hv]
    · have := d2.dispose .emptySpread
      simpa [hv, sentIf] using this
  · refine ⟨w2, ?_, ?_⟩
    · simp only [exec, e1, World.spread, hn, e2]
      simp [hv]
    · simpa [hv, sentIf] using d2

/-- C38: a stream of collections is spread element by element: the target's inbox is the
concatenation of the collections, in order. -/
theorem C38_spread_all (w : World V) (source target : Nat) (view : V → List V)
    (hst : target ≠ source) (ht : w.Listens target)
    (hact : ∀ i, i ∈ w.inbox source → w.active i.session = true) :
    ∃ w', execMany (.spread view target) source (w.inbox source).length w = (w', []) ∧
      w'.inbox source = [] ∧
      w'.inbox target = w.inbox target ++
        ((w.inbox source).flatMap fun i => (view i.data).map fun v => ⟨i.session, v⟩) ∧
      w'.disposals.length = w.disposals.length +
        (w.inbox source).countP fun i => (view i.data).isEmpty := by
  have law : StepLaw (.spread view target) source (fun w => w.Accepts target)
      (fun m => (view m).map fun v => (target, v))
      (fun m => if view m = [] then [.emptySpread] else []) := by
    intro w i rest hok hin
    simpa [sentIf] using C38_spread w source target view i rest hin hok
  obtain ⟨w', e, hb', hs, hd⟩ := drain law (fun w w' h hacc _ => (hacc target).2 h)
    (by
      intro m p hp
      obtain ⟨v, _, rfl⟩ := List.mem_map.1 hp
      exact hst)
    (w.inbox source) w (Or.inl ht) rfl
  refine ⟨w', e, hs, ?_, ?_⟩
  · rw [hb' target ht hst]
    congr 1
    generalize w.inbox source = ms at hact
    induction ms with
    | nil => rfl
    | cons i ms ih =>
      have hi := hact i (by simp)
      have := ih (fun j hj => hact j (by simp [hj]))
      simp only [share, List.flatMap_cons] at this ⊢
      rw [this]
      have hf : ∀ l : List V, (l.map fun v => (target, v)).filter (fun p => p.1 = target) =
          l.map fun v => (target, v) := by
        intro l
        rw [List.filter_eq_self]
        intro p hp
        obtain ⟨v, _, rfl⟩ := List.mem_map.1 hp
        simp
      simp only [sentIf, hi, if_true]
      rw [hf]
      simp [Function.comp_def]
  · rw [hd]
    simp only [List.length_append, Nat.add_left_cancel_iff]
    generalize w.inbox source = ms
    induction ms with
    | nil => rfl
    | cons i ms ih =>
      simp only [List.flatMap_cons, List.length_append, ih, List.countP_cons]
      cases hv : view i.data <;> simp <;> omega

/-! ### Examples -/

/-- Source 0 holds two inputs; 1, 2 listen, 3 is unused. -/
def exW : World Nat where
  nodes := fun e =>
    if e = 0 then some ⟨some [⟨9, 5⟩, ⟨9, 4⟩], false, none, none⟩
    else if e < 3 then some ⟨some [], false, none, none⟩
    else if e = 3 then some ⟨none, true, none, none⟩
    else none
  active := fun s => s = 9

def exView (n : Nat) : Except Nat Nat := if n % 2 = 0 then .ok n else .error n

example : exW.inbox 0 = [⟨9, 4⟩, ⟨9, 5⟩] ∧ exW.Listens 1 ∧ exW.Accepts 3 :=
  ⟨rfl, ⟨_, _, rfl, rfl⟩, Or.inr ⟨_, rfl, rfl, rfl⟩⟩

example : (execMany (.result exView [1, 2]) 0 2 exW).1.inbox 1 = [⟨9, 4⟩] ∧
    (execMany (.result exView [1, 2]) 0 2 exW).1.inbox 2 = [⟨9, 5⟩] ∧
    (execMany (.result exView [1, 2]) 0 2 exW).1.disposals =
      [⟨0, 9, .branching 2⟩, ⟨0, 9, .branching 1⟩] := by decide

example : (exec (.clone [1, 3, 2]) 0 exW).1.inbox 1 = [⟨9, 4⟩] ∧
    (exec (.clone [1, 3, 2]) 0 exW).1.inbox 2 = [⟨9, 4⟩] ∧
    (exec (.clone [1, 3, 2]) 0 exW).2 = none := by decide

example : (exec (.unzip 2 (fun n => [n, n + 10]) [2, 1]) 0 exW).1.inbox 1 = [⟨9, 14⟩] ∧
    (exec (.spread (fun n => [n, n + 1]) 1) 0 exW).1.inbox 1 = [⟨9, 4⟩, ⟨9, 5⟩] ∧
    (exec (.spread (fun _ => []) 1) 0 exW).1.disposals = [⟨0, 9, .emptySpread⟩] := by decide

end Verif.Fork
