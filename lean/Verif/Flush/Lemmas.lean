import Verif.Flush.Spec

namespace Verif.Flush

set_option linter.unusedSectionVars false
set_option linter.unusedSimpArgs false

variable {W E : Type} [DecidableEq E]

/-! ### History counters -/

@[simp] theorem newCount_nil (k : Kind) (e : E) : newCount k e [] = 0 := rfl
@[simp] theorem ranCount_nil (k : Kind) (e : E) : ranCount k e [] = 0 := rfl
theorem newCount_append (k : Kind) (e : E) (a b : List (Hist E)) :
    newCount k e (a ++ b) = newCount k e a + newCount k e b := by simp [newCount]
theorem ranCount_append (k : Kind) (e : E) (a b : List (Hist E)) :
    ranCount k e (a ++ b) = ranCount k e a + ranCount k e b := by simp [ranCount]
@[simp] theorem leftOf_append (k : Kind) (a b : List (Hist E)) :
    leftOf k (a ++ b) = leftOf k a ++ leftOf k b := by simp [leftOf]
@[simp] theorem enteredOf_append (k : Kind) (a b : List (Hist E)) :
    enteredOf k (a ++ b) = enteredOf k a ++ enteredOf k b := by simp [enteredOf]
@[simp] theorem ranOf_append (k : Kind) (a b : List (Hist E)) :
    ranOf k (a ++ b) = ranOf k a ++ ranOf k b := by simp [ranOf]
@[simp] theorem receivedOf_append (a b : List (Hist E)) :
    receivedOf (a ++ b) = receivedOf a ++ receivedOf b := by simp [receivedOf]
@[simp] theorem leftOf_nil (k : Kind) : leftOf k ([] : List (Hist E)) = [] := rfl
@[simp] theorem enteredOf_nil (k : Kind) : enteredOf k ([] : List (Hist E)) = [] := rfl
@[simp] theorem ranOf_nil (k : Kind) : ranOf k ([] : List (Hist E)) = [] := rfl
@[simp] theorem receivedOf_nil : receivedOf ([] : List (Hist E)) = [] := rfl

/-! ### Rosters -/

theorem waiting_push (k k' : Kind) (e e' : E) (r : Roster E) :
    waiting k e (r.push k' e') =
      waiting k e r + if (decide (slot k' = k) && decide (e' = e)) = true then 1 else 0 := by
  cases k <;> cases k' <;>
    simp [waiting, Roster.push, Roster.get, slot, List.count_append, List.count_singleton] <;>
    omega

theorem waiting_append (k : Kind) (e : E) (r r' : Roster E) :
    waiting k e (r.append r') = waiting k e r + waiting k e r' := by
  cases k <;> simp [waiting, Roster.append, Roster.get, List.count_append] <;> omega

theorem waiting_empty (k : Kind) (e : E) : waiting k e ({} : Roster E) = 0 := by
  cases k <;> simp [waiting, Roster.get]

theorem waiting_purge (k : Kind) (e e' : E) (r : Roster E) (h : e ≠ e') :
    waiting k e (r.purge e') = waiting k e r := by
  cases k <;> simp [waiting, Roster.purge, Roster.get, List.count_filter, h]

theorem waiting_processDeferals (k : Kind) (e : E) (r : Roster E) :
    waiting k e r.processDeferals = waiting k e r := by
  cases k <;> simp [waiting, Roster.processDeferals, Roster.get]

theorem get_push (k k' : Kind) (e : E) (r : Roster E) :
    (r.push k' e).get k = r.get k ++ if k' = k then [e] else [] := by
  cases k <;> cases k' <;> simp [Roster.push, Roster.get]

theorem isEmpty_eq {r : Roster E} (h : r.isEmpty = true) : r = {} := by
  cases r
  simp_all [Roster.isEmpty]

/-! ### Call-outs -/

/-- Call-outs change nothing of the machine but the world, the rosters, the channel
and the wake queue. -/
theorem applyEffs_frame (fs : List (Eff E)) (s : St W E) :
    (applyEffs s fs).1.world = s.world ∧ (applyEffs s fs).1.loopCount = s.loopCount ∧
    (applyEffs s fs).1.received = s.received ∧ (applyEffs s fs).1.params = s.params ∧
    (applyEffs s fs).1.phase = s.phase := by
  induction fs generalizing s with
  | nil => simp [applyEffs]
  | cons f fs ih =>
    have := ih (applyEff s f).1
    simp only [applyEffs]
    cases f <;> simp_all [applyEff]

theorem perform_frame (P : Prog W E) (c : Call E) (s : St W E) :
    (perform P c s).1.loopCount = s.loopCount ∧ (perform P c s).1.received = s.received ∧
    (perform P c s).1.params = s.params ∧ (perform P c s).1.phase = s.phase := by
  have := applyEffs_frame (P.call c s.world).2 { s with world := (P.call c s.world).1 }
  simp only [perform]
  exact this.2

/-- Conservation for call-outs. -/
theorem applyEffs_conserve (k : Kind) (e : E) (fs : List (Eff E)) (s : St W E)
    (hp : .purged e ∉ (applyEffs s fs).2) :
    pending k e s + newCount k e (applyEffs s fs).2 =
      pending k e (applyEffs s fs).1 + ranCount k e (applyEffs s fs).2 := by
  induction fs generalizing s with
  | nil => simp [applyEffs]
  | cons f fs ih =>
    simp only [applyEffs, newCount_append, ranCount_append, List.mem_append, not_or] at hp ⊢
    have h1 := ih (applyEff s f).1 hp.2
    have h2 : pending k e s + newCount k e (applyEff s f).2 =
        pending k e (applyEff s f).1 + ranCount k e (applyEff s f).2 := by
      cases f with
      | put k' e' =>
        simp [applyEff, pending, waiting_push, newCount, ranCount, List.countP_cons]; omega
      | later k' e' =>
        simp [applyEff, pending, waiting_push, newCount, ranCount, List.countP_cons]; omega
      | purge e' =>
        have : e ≠ e' := by
          intro h; apply hp.1; simp [applyEff, h]
        simp [applyEff, pending, waiting_purge _ _ _ _ this, newCount, ranCount]
      | chan e' => simp [applyEff, pending]
      | wake e' => simp [applyEff, pending]
    omega

theorem perform_conserve (P : Prog W E) (c : Call E) (k : Kind) (e : E) (s : St W E)
    (hp : .purged e ∉ (perform P c s).2) :
    pending k e s + newCount k e (perform P c s).2 =
      pending k e (perform P c s).1 + ranCount k e (perform P c s).2 :=
  applyEffs_conserve k e (P.call c s.world).2 { s with world := (P.call c s.world).1 } hp

theorem applyEffs_fifo (k : Kind) (fs : List (Eff E)) (s : St W E)
    (hp : noPurge (applyEffs s fs).2) :
    leftOf k (applyEffs s fs).2 = [] ∧
    (applyEffs s fs).1.roster.get k = s.roster.get k ++ enteredOf k (applyEffs s fs).2 := by
  induction fs generalizing s with
  | nil => simp [applyEffs]
  | cons f fs ih =>
    have hp1 : noPurge (applyEff s f).2 := fun e h => hp e (by simp [applyEffs, h])
    have hp2 : noPurge (applyEffs (applyEff s f).1 fs).2 :=
      fun e h => hp e (by simp [applyEffs, h])
    have h1 := ih (applyEff s f).1 hp2
    simp only [applyEffs, leftOf_append, enteredOf_append, h1.1, h1.2]
    cases f with
    | put k' e' =>
      simp only [applyEff, get_push]
      by_cases hk : k' = k <;> simp [leftOf, enteredOf, hk]
    | later k' e' => simp [applyEff, leftOf, enteredOf]
    | purge e' => exact absurd (by simp [applyEff]) (hp1 e')
    | chan e' => simp [applyEff]
    | wake e' => simp [applyEff]

theorem perform_fifo (P : Prog W E) (c : Call E) (k : Kind) (s : St W E)
    (hp : noPurge (perform P c s).2) :
    leftOf k (perform P c s).2 = [] ∧
    (perform P c s).1.roster.get k = s.roster.get k ++ enteredOf k (perform P c s).2 :=
  applyEffs_fifo k (P.call c s.world).2 { s with world := (P.call c s.world).1 } hp

theorem applyEffs_chan (fs : List (Eff E)) (s : St W E) :
    receivedOf (applyEffs s fs).2 = [] ∧ ∃ c, (applyEffs s fs).1.chan = s.chan ++ c := by
  induction fs generalizing s with
  | nil => exact ⟨rfl, [], by simp [applyEffs]⟩
  | cons f fs ih =>
    obtain ⟨h1, c, h2⟩ := ih (applyEff s f).1
    simp only [applyEffs, receivedOf_append, h1, h2]
    cases f <;> simp [applyEff, receivedOf]

theorem perform_chan (P : Prog W E) (c : Call E) (s : St W E) :
    receivedOf (perform P c s).2 = [] ∧ ∃ l, (perform P c s).1.chan = s.chan ++ l :=
  applyEffs_chan (P.call c s.world).2 { s with world := (P.call c s.world).1 }

/-! ### Moving whole rosters -/

theorem newCount_histOf (f : Kind → E → Hist E) (k : Kind) (e : E) (r : Roster E)
    (hf : ∀ k e k' e', f k e ≠ .new k' e') : newCount k e (histOf f r) = 0 := by
  simp only [newCount, List.countP_eq_zero]
  intro h hm
  simp only [histOf, List.mem_flatMap, List.mem_map] at hm
  obtain ⟨k', _, e', _, rfl⟩ := hm
  have := hf k' e'
  cases hh : f k' e' <;> simp_all

theorem ranCount_histOf (f : Kind → E → Hist E) (k : Kind) (e : E) (r : Roster E)
    (hf : ∀ k e k' e', f k e ≠ .ran k' e') : ranCount k e (histOf f r) = 0 := by
  simp only [ranCount, List.countP_eq_zero]
  intro h hm
  simp only [histOf, List.mem_flatMap, List.mem_map] at hm
  obtain ⟨k', _, e', _, rfl⟩ := hm
  have := hf k' e'
  cases hh : f k' e' <;> simp_all

@[simp] theorem filterMap_none' {α β : Type} (l : List α) :
    l.filterMap (fun _ => (none : Option β)) = [] := by
  induction l <;> simp_all

theorem leftOf_kept (k : Kind) (r : Roster E) : leftOf k (histOf .kept r) = r.get k := by
  cases k <;>
    simp [leftOf, histOf, List.filterMap_append, List.filterMap_map, Function.comp_def, Roster.get]

theorem enteredOf_kept (k : Kind) (r : Roster E) : enteredOf k (histOf .kept r) = [] := by
  cases k <;>
    simp [enteredOf, histOf, List.filterMap_append, List.filterMap_map, Function.comp_def,
      Roster.get]

theorem leftOf_merged (k : Kind) (r : Roster E) : leftOf k (histOf .merged r) = [] := by
  cases k <;>
    simp [leftOf, histOf, List.filterMap_append, List.filterMap_map, Function.comp_def, Roster.get]

theorem enteredOf_merged (k : Kind) (r : Roster E) :
    enteredOf k (histOf .merged r) = r.get k := by
  cases k <;>
    simp [enteredOf, histOf, List.filterMap_append, List.filterMap_map, Function.comp_def,
      Roster.get]

@[simp] theorem storedOf_append (k : Kind) (a b : List (Hist E)) :
    storedOf k (a ++ b) = storedOf k a ++ storedOf k b := by simp [storedOf]
@[simp] theorem mergedOf_append (k : Kind) (a b : List (Hist E)) :
    mergedOf k (a ++ b) = mergedOf k a ++ mergedOf k b := by simp [mergedOf]
@[simp] theorem storedOf_nil (k : Kind) : storedOf k ([] : List (Hist E)) = [] := rfl
@[simp] theorem mergedOf_nil (k : Kind) : mergedOf k ([] : List (Hist E)) = [] := rfl

theorem storedOf_kept (k : Kind) (r : Roster E) : storedOf k (histOf .kept r) = r.get k := by
  cases k <;>
    simp [storedOf, histOf, List.filterMap_append, List.filterMap_map, Function.comp_def,
      Roster.get]

theorem mergedOf_kept (k : Kind) (r : Roster E) : mergedOf k (histOf .kept r) = [] := by
  cases k <;>
    simp [mergedOf, histOf, List.filterMap_append, List.filterMap_map, Function.comp_def,
      Roster.get]

theorem storedOf_merged (k : Kind) (r : Roster E) : storedOf k (histOf .merged r) = [] := by
  cases k <;>
    simp [storedOf, histOf, List.filterMap_append, List.filterMap_map, Function.comp_def,
      Roster.get]

theorem mergedOf_merged (k : Kind) (r : Roster E) : mergedOf k (histOf .merged r) = r.get k := by
  cases k <;>
    simp [mergedOf, histOf, List.filterMap_append, List.filterMap_map, Function.comp_def,
      Roster.get]

theorem purged_histOf (f : Kind → E → Hist E) (e : E) (r : Roster E)
    (hf : ∀ k e e', f k e ≠ .purged e') : .purged e ∉ histOf f r := by
  intro hm
  simp only [histOf, List.mem_flatMap, List.mem_map] at hm
  obtain ⟨k', _, e', _, h⟩ := hm
  exact hf _ _ _ h

/-! ### Steps -/

theorem reached_none (n : Nat) : reached none n = false := rfl

theorem getLast?_count {l : List E} {x : E} (h : l.getLast? = some x) (e : E) :
    l.count e = l.dropLast.count e + if x = e then 1 else 0 := by
  obtain ⟨ys, rfl⟩ := List.getLast?_eq_some_iff.mp h
  simp [List.count_append, List.count_singleton]

theorem runEntry_conserve (P : Prog W E) (k0 : Kind) (e0 : E) (next : Phase) (s : St W E)
    (k : Kind) (e : E) (hp : .purged e ∉ (runEntry P k0 e0 next s).2) :
    pending k e s + newCount k e (runEntry P k0 e0 next s).2 +
        (if (decide (slot k0 = k) && decide (e0 = e)) = true then 1 else 0) =
      pending k e (runEntry P k0 e0 next s).1 + ranCount k e (runEntry P k0 e0 next s).2 := by
  simp only [runEntry, List.mem_cons, not_or] at hp ⊢
  have h := perform_conserve P (.entry k0 e0) k e s hp.2
  have h1 : newCount k e (Hist.ran k0 e0 :: (perform P (.entry k0 e0) s).2) =
      newCount k e (perform P (.entry k0 e0) s).2 := by simp [newCount, List.countP_cons]
  have h2 : ranCount k e (Hist.ran k0 e0 :: (perform P (.entry k0 e0) s).2) =
      ranCount k e (perform P (.entry k0 e0) s).2 +
        (if (decide (slot k0 = k) && decide (e0 = e)) = true then 1 else 0) := by
    simp [ranCount, List.countP_cons]
  rw [h1, h2]
  simp only [pending] at h ⊢
  omega

theorem runEntry_fifo (P : Prog W E) (k0 : Kind) (e0 : E) (next : Phase) (s : St W E)
    (k : Kind) (hp : noPurge (runEntry P k0 e0 next s).2) :
    leftOf k (runEntry P k0 e0 next s).2 = (if k0 = k then [e0] else []) ∧
    (runEntry P k0 e0 next s).1.roster.get k =
      s.roster.get k ++ enteredOf k (runEntry P k0 e0 next s).2 := by
  have hp' : noPurge (perform P (.entry k0 e0) s).2 :=
    fun e h => hp e (by simp [runEntry, h])
  have h := perform_fifo P (.entry k0 e0) k s hp'
  simp only [runEntry]
  have e1 : leftOf k (Hist.ran k0 e0 :: (perform P (.entry k0 e0) s).2) =
      (if k0 = k then [e0] else []) ++ leftOf k (perform P (.entry k0 e0) s).2 := by
    by_cases hk : k0 = k <;> simp [leftOf, hk]
  have e2 : enteredOf k (Hist.ran k0 e0 :: (perform P (.entry k0 e0) s).2) =
      enteredOf k (perform P (.entry k0 e0) s).2 := by simp [enteredOf]
  rw [e1, e2, h.1]
  exact ⟨by simp, h.2⟩

theorem newCount_undeferred (k : Kind) (e : E) (l : List E) :
    newCount k e (l.map .undeferred) = 0 := by
  simp [newCount, List.countP_map, Function.comp_def]

theorem ranCount_undeferred (k : Kind) (e : E) (l : List E) :
    ranCount k e (l.map .undeferred) = 0 := by
  simp [ranCount, List.countP_map, Function.comp_def]

theorem newCount_wake (k : Kind) (e : E) (l : List E) :
    newCount k e (l.flatMap fun e => [.new .awake e, .entered .awake e]) =
      if k = .awake then l.count e else 0 := by
  induction l with
  | nil => simp [newCount]
  | cons x l ih =>
    rw [List.flatMap_cons, newCount_append, ih]
    cases k <;> simp [newCount, List.countP_cons, slot, List.count_cons] <;> omega

theorem ranCount_wake (k : Kind) (e : E) (l : List E) :
    ranCount k e (l.flatMap fun e => [.new .awake e, .entered .awake e]) = 0 := by
  induction l with
  | nil => simp [ranCount]
  | cons x l ih =>
    rw [List.flatMap_cons, ranCount_append, ih]
    simp [ranCount, List.countP_cons]

/-- One step of the flush neither loses nor invents entries. -/
theorem tick_conserve (P : Prog W E) (s : St W E) (hw : WF s) (k : Kind) (e : E)
    (hp : .purged e ∉ (tick P s).2) :
    pending k e s + newCount k e (tick P s).2 =
      pending k e (tick P s).1 + ranCount k e (tick P s).2 := by
  obtain ⟨w, ros, lat, ch, wk, lc, rc, pa, ph⟩ := s
  cases ph <;> simp only [tick] at hp ⊢
  case idle =>
    have := hw.1 rfl
    simp only at this
    simp [pending, this]
  case recv =>
    cases ch with
    | nil => simp [pending]
    | cons x rest =>
      have a : ∀ l : List (Hist E), newCount k e (.received x :: l) = newCount k e l := by
        intro l; simp [newCount, List.countP_cons]
      have b : ∀ l : List (Hist E), ranCount k e (.received x :: l) = ranCount k e l := by
        intro l; simp [ranCount, List.countP_cons]
      by_cases hr : reached pa.channelLimit rc = true <;>
        simp only [hr, if_true, if_false, Bool.false_eq_true, List.mem_cons, not_or] at hp ⊢ <;>
        rw [a, b] <;> exact perform_conserve P (.item x) k e _ hp.2
  case services =>
    simp only [List.mem_append, not_or] at hp
    have h := perform_conserve P .services k e _ hp.2
    simp only [newCount_append, ranCount_append, newCount_undeferred, ranCount_undeferred]
    simp only [pending, waiting_processDeferals] at h ⊢
    omega
  case merge =>
    rw [newCount_append, ranCount_append, newCount_histOf _ _ _ _ (by simp),
      ranCount_histOf _ _ _ _ (by simp), newCount_wake, ranCount_wake]
    simp only [pending]
    have h := waiting_append k e ros lat
    rw [waiting_empty]
    cases k <;> simp [waiting, Roster.get, Roster.append, List.count_append] at h ⊢ <;> omega
  case targets =>
    exact perform_conserve P .targets k e _ hp
  case dispose =>
    cases hd : ros.disposed.getLast? with
    | none => simp [pending]
    | some x =>
      simp only [hd] at hp
      have h := runEntry_conserve P .disposed x .dispose _ k e hp
      have hc := getLast?_count hd e
      simp only
      rw [← h]
      simp only [pending]
      cases k <;> simp [waiting, Roster.get, slot] at hc ⊢ <;> omega
  case top =>
    split <;> simp [pending, newCount, ranCount]
  case despawn =>
    cases hd : ros.despawn with
    | nil => simp [pending]
    | cons x rest =>
      simp only [hd] at hp
      have h := runEntry_conserve P .despawn x .despawn _ k e hp
      simp only
      rw [← h]
      simp only [pending]
      cases k <;> simp [waiting, Roster.get, slot, hd, List.count_cons] <;> omega
  case limit =>
    by_cases hr : reached (P.params w).loopLimit lc = true
    · simp only [hr, if_true, newCount_append, ranCount_append]
      rw [newCount_histOf _ _ _ _ (by simp), ranCount_histOf _ _ _ _ (by simp)]
      simp [pending, waiting_append, waiting_empty, newCount, ranCount]
      omega
    · simp [hr, pending]
  case cleanups ret =>
    cases hd : ros.cleanup.getLast? with
    | none => simp [pending]
    | some x =>
      simp only [hd] at hp
      have h := runEntry_conserve P .cleanup x (.cleanups ret) _ k e hp
      have hc := getLast?_count hd e
      simp only
      rw [← h]
      simp only [pending]
      cases k <;> simp [waiting, Roster.get, slot] at hc ⊢ <;> omega
  case cancels ret =>
    cases hd : ros.cancel with
    | nil => simp [pending]
    | cons x rest =>
      simp only [hd] at hp
      have h := runEntry_conserve P .cancel x (.cancels ret) _ k e hp
      simp only
      rw [← h]
      simp only [pending]
      cases k <;> simp [waiting, Roster.get, slot, hd, List.count_cons] <;> omega
  case unblock =>
    cases hd : ros.unblock with
    | nil => simp [pending]
    | cons x rest =>
      simp only [hd] at hp
      have h := runEntry_conserve P .unblock x (.cleanups .unblock) _ k e hp
      simp only
      rw [← h]
      simp only [pending]
      cases k <;> simp [waiting, Roster.get, slot, hd, List.count_cons] <;> omega
  case queue =>
    cases hd : ros.queue with
    | nil => simp [pending]
    | cons x rest =>
      simp only [hd] at hp
      have h := runEntry_conserve P .queue x (.cleanups .queueCheck) _ k e hp
      simp only
      rw [← h]
      simp only [pending]
      cases k <;> simp [waiting, Roster.get, slot, hd, List.count_cons] <;> omega
  case queueCheck =>
    split <;> simp [pending]
  case awake =>
    cases hd : ros.awake with
    | nil => simp [pending]
    | cons x rest =>
      simp only [hd] at hp
      have h := runEntry_conserve P .awake x (.cleanups .awake) _ k e hp
      simp only
      rw [← h]
      simp only [pending]
      cases k <;> simp [waiting, Roster.get, slot, hd, List.count_cons] <;> omega

theorem perform_phase (P : Prog W E) (c : Call E) (s : St W E) :
    (perform P c s).1.phase = s.phase := (perform_frame P c s).2.2.2

theorem tick_WF (P : Prog W E) (s : St W E) (hw : WF s) : WF (tick P s).1 := by
  obtain ⟨w, ros, lat, ch, wk, lc, rc, pa, ph⟩ := s
  cases ph <;> simp only [tick]
  case recv =>
    cases ch with
    | nil => simp [WF]
    | cons x rest =>
      by_cases hr : reached pa.channelLimit rc = true <;> simp [hr, WF, perform_phase]
  case top =>
    by_cases hr : ros.isEmpty = true
    · simp only [hr, if_true, WF]
      exact ⟨fun _ => isEmpty_eq hr, trivial⟩
    · simp [hr, WF]
  case limit =>
    by_cases hr : reached (P.params w).loopLimit lc = true <;> simp [hr, WF]
  case cleanups ret =>
    have := hw.2
    cases hd : ros.cleanup.getLast? <;> simp_all [WF, runEntry]
  case cancels ret =>
    have := hw.2
    cases hd : ros.cancel with
    | cons x l => simp_all [WF, runEntry]
    | nil =>
      simp only at this
      rcases this with rfl | rfl | rfl <;> simp [WF]
  case queueCheck =>
    by_cases hr : reached pa.loopLimit (lc + 1) = true <;> simp [hr, WF]
  all_goals first
    | (simp [WF]; done)
    | (cases hd : ros.disposed.getLast? <;> simp [WF, runEntry]; done)
    | (cases hd : ros.despawn <;> simp [WF, runEntry]; done)
    | (cases hd : ros.unblock <;> simp [WF, runEntry]; done)
    | (cases hd : ros.queue <;> simp [WF, runEntry]; done)
    | (cases hd : ros.awake <;> simp [WF, runEntry]; done)

theorem step_env_frame (fs : List (Kind × E)) (s : St W E) :
    let r := applyEffs s (fs.map fun p => .later p.1 p.2)
    r.1.roster = s.roster ∧ r.1.phase = s.phase ∧ r.1.chan = s.chan ∧ r.1.wake = s.wake ∧
    r.1.loopCount = s.loopCount ∧ r.1.received = s.received ∧ r.1.params = s.params ∧
    r.1.world = s.world ∧
    (∀ k, leftOf k r.2 = []) ∧ (∀ k, enteredOf k r.2 = []) ∧ (∀ k, ranOf k r.2 = []) ∧
    receivedOf r.2 = [] ∧ (∀ e, .purged e ∉ r.2) ∧ (∀ k, ∃ l, r.1.later.get k = s.later.get k ++ l) ∧
    .ended ∉ r.2 := by
  induction fs generalizing s with
  | nil => simp [applyEffs, noPurge]
  | cons f fs ih =>
    obtain ⟨a, b, c, d, e1, e2, e3, e4, e5, e6, e7, e8, e9, e10, e11⟩ :=
      ih (applyEff s (.later f.1 f.2)).1
    simp only [List.map_cons, applyEffs] at *
    refine ⟨a, b, c, d, e1, e2, e3, e4, ?_, ?_, ?_, ?_, ?_, ?_, ?_⟩
    · intro k; simp only [leftOf_append, e5]; simp [applyEff, leftOf]
    · intro k; simp only [enteredOf_append, e6]; simp [applyEff, enteredOf]
    · intro k; simp only [ranOf_append, e7]; simp [applyEff, ranOf]
    · simp only [receivedOf_append, e8]; simp [applyEff, receivedOf]
    · intro e; simp only [List.mem_append, not_or]; exact ⟨by simp [applyEff], e9 e⟩
    · intro k
      obtain ⟨l, hl⟩ := e10 k
      refine ⟨(if f.1 = k then [f.2] else []) ++ l, ?_⟩
      rw [hl]
      simp [applyEff, get_push]
    · simp only [List.mem_append, not_or]; exact ⟨by simp [applyEff], e11⟩

theorem step_WF (P : Prog W E) (s : St W E) (v : Ev W E) (hw : WF s) : WF (step P s v).1 := by
  cases v with
  | tick => exact tick_WF P s hw
  | env f l c w =>
    have h := step_env_frame l { s with world := f s.world, chan := s.chan ++ c, wake := s.wake ++ w }
    simp only [step, WF, h.1, h.2.1]
    exact hw

theorem step_conserve (P : Prog W E) (s : St W E) (v : Ev W E) (hw : WF s) (k : Kind) (e : E)
    (hp : .purged e ∉ (step P s v).2) :
    pending k e s + newCount k e (step P s v).2 =
      pending k e (step P s v).1 + ranCount k e (step P s v).2 := by
  cases v with
  | tick => exact tick_conserve P s hw k e hp
  | env f l c w => exact applyEffs_conserve k e _ _ hp

theorem run_WF (P : Prog W E) (vs : List (Ev W E)) (s : St W E) (hw : WF s) :
    WF (run P s vs).1 := by
  induction vs generalizing s with
  | nil => exact hw
  | cons v vs ih => exact ih _ (step_WF P s v hw)

theorem run_conserve (P : Prog W E) (vs : List (Ev W E)) (s : St W E) (hw : WF s) (k : Kind)
    (e : E) (hp : .purged e ∉ (run P s vs).2) :
    pending k e s + newCount k e (run P s vs).2 =
      pending k e (run P s vs).1 + ranCount k e (run P s vs).2 := by
  induction vs generalizing s with
  | nil => simp [run]
  | cons v vs ih =>
    simp only [run, List.mem_append, not_or, newCount_append, ranCount_append] at hp ⊢
    have h1 := step_conserve P s v hw k e hp.1
    have h2 := ih _ (step_WF P s v hw) hp.2
    omega

theorem leftOf_undeferred (k : Kind) (l : List E) :
    leftOf k (l.map .undeferred) = if k = .deferred then l else [] := by
  cases k <;> simp [leftOf, List.filterMap_map, Function.comp_def]

theorem enteredOf_undeferred (k : Kind) (l : List E) :
    enteredOf k (l.map .undeferred) = if k = .queue then l else [] := by
  cases k <;> simp [enteredOf, List.filterMap_map, Function.comp_def]

theorem leftOf_wake (k : Kind) (l : List E) :
    leftOf k (l.flatMap fun e => [.new .awake e, .entered .awake e]) = [] := by
  induction l with
  | nil => rfl
  | cons x l ih => rw [List.flatMap_cons, leftOf_append, ih]; simp [leftOf]

theorem enteredOf_wake (k : Kind) (l : List E) :
    enteredOf k (l.flatMap fun e => [.new .awake e, .entered .awake e]) =
      if k = .awake then l else [] := by
  induction l with
  | nil => simp
  | cons x l ih =>
    rw [List.flatMap_cons, enteredOf_append, ih]
    cases k <;> simp [enteredOf]

/-- Each first-in-first-out list of the running roster: what leaves it, followed by
what is in it, is what was in it followed by what entered. -/
theorem tick_fifo (P : Prog W E) (s : St W E) (hw : WF s) (k : Kind) (hk : Fifo k)
    (hp : noPurge (tick P s).2) :
    leftOf k (tick P s).2 ++ (tick P s).1.roster.get k =
      s.roster.get k ++ enteredOf k (tick P s).2 := by
  obtain ⟨w, ros, lat, ch, wk, lc, rc, pa, ph⟩ := s
  cases ph <;> simp only [tick] at hp ⊢
  case idle =>
    have := hw.1 rfl
    simp only at this
    simp [this]
  case recv =>
    cases ch with
    | nil => simp
    | cons x rest =>
      have a : ∀ l : List (Hist E), leftOf k (.received x :: l) = leftOf k l := by
        intro l; simp [leftOf]
      have b : ∀ l : List (Hist E), enteredOf k (.received x :: l) = enteredOf k l := by
        intro l; simp [enteredOf]
      by_cases hr : reached pa.channelLimit rc = true <;>
        simp only [hr, if_true, if_false, Bool.false_eq_true] at hp ⊢ <;>
        (have hp' := perform_fifo P (.item x) k _ (fun e h => hp e (List.mem_cons_of_mem _ h))
         rw [a, b, hp'.1, hp'.2]; simp)
  case services =>
    have h := perform_fifo P .services k _ (fun e h => hp e (List.mem_append_right _ h))
    simp only [leftOf_append, enteredOf_append, leftOf_undeferred, enteredOf_undeferred, h.1, h.2]
    cases k <;> simp [Roster.get, Roster.processDeferals]
  case merge =>
    simp only [leftOf_append, enteredOf_append, leftOf_merged, enteredOf_merged, leftOf_wake,
      enteredOf_wake]
    cases k <;> simp [Roster.get, Roster.append]
  case targets =>
    have h := perform_fifo P .targets k _ hp
    simp only [h.1, h.2]
    simp
  case dispose =>
    cases hd : ros.disposed.getLast? with
    | none => simp
    | some x =>
      simp only [hd] at hp
      have h := runEntry_fifo P .disposed x .dispose _ k hp
      simp only [h.1, h.2]
      cases k <;> simp_all [Roster.get, Fifo]
  case top =>
    split <;> simp [leftOf, enteredOf]
  case despawn =>
    cases hd : ros.despawn with
    | nil => simp
    | cons x rest =>
      simp only [hd] at hp
      have h := runEntry_fifo P .despawn x .despawn _ k hp
      simp only [h.1, h.2]
      cases k <;> simp [Roster.get, hd]
  case limit =>
    by_cases hr : reached (P.params w).loopLimit lc = true
    · simp only [hr, if_true, leftOf_append, enteredOf_append, leftOf_kept, enteredOf_kept]
      cases k <;> simp [leftOf, enteredOf, Roster.get]
    · simp [hr]
  case cleanups ret =>
    cases hd : ros.cleanup.getLast? with
    | none => simp
    | some x =>
      simp only [hd] at hp
      have h := runEntry_fifo P .cleanup x (.cleanups ret) _ k hp
      simp only [h.1, h.2]
      cases k <;> simp_all [Roster.get, Fifo]
  case cancels ret =>
    cases hd : ros.cancel with
    | nil => simp
    | cons x rest =>
      simp only [hd] at hp
      have h := runEntry_fifo P .cancel x (.cancels ret) _ k hp
      simp only [h.1, h.2]
      cases k <;> simp [Roster.get, hd]
  case unblock =>
    cases hd : ros.unblock with
    | nil => simp
    | cons x rest =>
      simp only [hd] at hp
      have h := runEntry_fifo P .unblock x (.cleanups .unblock) _ k hp
      simp only [h.1, h.2]
      cases k <;> simp [Roster.get, hd]
  case queue =>
    cases hd : ros.queue with
    | nil => simp
    | cons x rest =>
      simp only [hd] at hp
      have h := runEntry_fifo P .queue x (.cleanups .queueCheck) _ k hp
      simp only [h.1, h.2]
      cases k <;> simp [Roster.get, hd]
  case queueCheck =>
    split <;> simp
  case awake =>
    cases hd : ros.awake with
    | nil => simp
    | cons x rest =>
      simp only [hd] at hp
      have h := runEntry_fifo P .awake x (.cleanups .awake) _ k hp
      simp only [h.1, h.2]
      cases k <;> simp [Roster.get, hd]

theorem run_fifo (P : Prog W E) (vs : List (Ev W E)) (s : St W E) (hw : WF s) (k : Kind)
    (hk : Fifo k) (hp : noPurge (run P s vs).2) :
    leftOf k (run P s vs).2 ++ (run P s vs).1.roster.get k =
      s.roster.get k ++ enteredOf k (run P s vs).2 := by
  induction vs generalizing s with
  | nil => simp [run]
  | cons v vs ih =>
    have hp1 : noPurge (step P s v).2 := fun e h => hp e (by simp [run, h])
    have hp2 : noPurge (run P (step P s v).1 vs).2 := fun e h => hp e (by simp [run, h])
    have h2 := ih _ (step_WF P s v hw) hp2
    have h1 : leftOf k (step P s v).2 ++ (step P s v).1.roster.get k =
        s.roster.get k ++ enteredOf k (step P s v).2 := by
      cases v with
      | tick => exact tick_fifo P s hw k hk hp1
      | env f l c w =>
        have h := step_env_frame l
          { s with world := f s.world, chan := s.chan ++ c, wake := s.wake ++ w }
        obtain ⟨a, b, -, -, -, -, -, -, c1, d1, -⟩ := h
        simp only [step, c1, d1, a]
        simp
    simp only [run, leftOf_append, enteredOf_append, List.append_assoc]
    rw [h2, ← List.append_assoc, h1, List.append_assoc]

/-! ### The deferred roster -/

theorem get_append (k : Kind) (r r' : Roster E) :
    (r.append r').get k = r.get k ++ r'.get k := by
  cases k <;> rfl

theorem applyEffs_later (k : Kind) (fs : List (Eff E)) (s : St W E) :
    mergedOf k (applyEffs s fs).2 = [] ∧
    (applyEffs s fs).1.later.get k = s.later.get k ++ storedOf k (applyEffs s fs).2 := by
  induction fs generalizing s with
  | nil => simp [applyEffs]
  | cons f fs ih =>
    have h1 := ih (applyEff s f).1
    simp only [applyEffs, mergedOf_append, storedOf_append, h1.1, h1.2]
    cases f with
    | later k' e' =>
      simp only [applyEff, get_push]
      by_cases hk : k' = k <;> simp [mergedOf, storedOf, hk]
    | put k' e' => simp [applyEff, mergedOf, storedOf]
    | purge e' => simp [applyEff, mergedOf, storedOf]
    | chan e' => simp [applyEff]
    | wake e' => simp [applyEff]

theorem perform_later (P : Prog W E) (c : Call E) (k : Kind) (s : St W E) :
    mergedOf k (perform P c s).2 = [] ∧
    (perform P c s).1.later.get k = s.later.get k ++ storedOf k (perform P c s).2 :=
  applyEffs_later k (P.call c s.world).2 { s with world := (P.call c s.world).1 }

theorem runEntry_later (P : Prog W E) (k0 : Kind) (e0 : E) (next : Phase) (k : Kind) (s : St W E) :
    mergedOf k (runEntry P k0 e0 next s).2 = [] ∧
    (runEntry P k0 e0 next s).1.later.get k =
      s.later.get k ++ storedOf k (runEntry P k0 e0 next s).2 := by
  have h := perform_later P (.entry k0 e0) k s
  simp only [runEntry]
  have a : mergedOf k (Hist.ran k0 e0 :: (perform P (.entry k0 e0) s).2) =
    mergedOf k (perform P (.entry k0 e0) s).2 := by simp [mergedOf]
  have b : storedOf k (Hist.ran k0 e0 :: (perform P (.entry k0 e0) s).2) =
    storedOf k (perform P (.entry k0 e0) s).2 := by simp [storedOf]
  rw [a, b]; exact h

theorem mergedOf_wake (k : Kind) (l : List E) :
    mergedOf k (l.flatMap fun e => [.new .awake e, .entered .awake e]) = [] := by
  induction l with
  | nil => rfl
  | cons x l ih => rw [List.flatMap_cons, mergedOf_append, ih]; simp [mergedOf]

theorem storedOf_wake (k : Kind) (l : List E) :
    storedOf k (l.flatMap fun e => [.new .awake e, .entered .awake e]) = [] := by
  induction l with
  | nil => rfl
  | cons x l ih => rw [List.flatMap_cons, storedOf_append, ih]; simp [storedOf]

theorem mergedOf_undeferred (k : Kind) (l : List E) : mergedOf k (l.map .undeferred) = [] := by
  simp [mergedOf, List.filterMap_map, Function.comp_def]

theorem storedOf_undeferred (k : Kind) (l : List E) : storedOf k (l.map .undeferred) = [] := by
  simp [storedOf, List.filterMap_map, Function.comp_def]

theorem tick_later (P : Prog W E) (s : St W E) (k : Kind) :
    mergedOf k (tick P s).2 ++ (tick P s).1.later.get k =
      s.later.get k ++ storedOf k (tick P s).2 := by
  obtain ⟨w, ros, lat, ch, wk, lc, rc, pa, ph⟩ := s
  cases ph <;> simp only [tick]
  case idle => simp
  case recv =>
    cases ch with
    | nil => simp
    | cons x rest =>
      have a : ∀ l : List (Hist E), mergedOf k (.received x :: l) = mergedOf k l := by
        intro l; simp [mergedOf]
      have b : ∀ l : List (Hist E), storedOf k (.received x :: l) = storedOf k l := by
        intro l; simp [storedOf]
      have h := perform_later P (.item x) k
        (⟨w, ros, lat, rest, wk, lc, rc, pa, .recv⟩ : St W E)
      by_cases hr : reached pa.channelLimit rc = true <;>
        simp only [hr, if_true, if_false, Bool.false_eq_true, a, b, h.1, h.2] <;> simp
  case services =>
    have h := perform_later P .services k
      (⟨w, ros.processDeferals, lat, ch, wk, lc, rc, pa, .services⟩ : St W E)
    simp only [mergedOf_append, storedOf_append, mergedOf_undeferred, storedOf_undeferred, h.1, h.2]
    simp
  case merge =>
    simp only [mergedOf_append, storedOf_append, mergedOf_merged, storedOf_merged, mergedOf_wake,
      storedOf_wake]
    cases k <;> simp [Roster.get]
  case targets =>
    have h := perform_later P .targets k (⟨w, ros, lat, ch, wk, lc, rc, pa, .targets⟩ : St W E)
    simp [h.1, h.2]
  case top =>
    split <;> simp [mergedOf, storedOf]
  case limit =>
    by_cases hr : reached (P.params w).loopLimit lc = true
    · simp only [hr, if_true, mergedOf_append, storedOf_append, mergedOf_kept, storedOf_kept,
        get_append]
      simp [mergedOf, storedOf]
    · simp [hr]
  case queueCheck =>
    split <;> simp
  case dispose =>
    cases hd : ros.disposed.getLast? <;> simp [runEntry_later]
  case despawn =>
    cases hd : ros.despawn <;> simp [runEntry_later]
  case cleanups ret =>
    cases hd : ros.cleanup.getLast? <;> simp [runEntry_later]
  case cancels ret =>
    cases hd : ros.cancel <;> simp [runEntry_later]
  case unblock =>
    cases hd : ros.unblock <;> simp [runEntry_later]
  case queue =>
    cases hd : ros.queue <;> simp [runEntry_later]
  case awake =>
    cases hd : ros.awake <;> simp [runEntry_later]

theorem run_later (P : Prog W E) (vs : List (Ev W E)) (s : St W E) (k : Kind) :
    mergedOf k (run P s vs).2 ++ (run P s vs).1.later.get k =
      s.later.get k ++ storedOf k (run P s vs).2 := by
  induction vs generalizing s with
  | nil => simp [run]
  | cons v vs ih =>
    have h2 := ih (step P s v).1
    have h1 : mergedOf k (step P s v).2 ++ (step P s v).1.later.get k =
        s.later.get k ++ storedOf k (step P s v).2 := by
      cases v with
      | tick => exact tick_later P s k
      | env f l c w =>
        have h := applyEffs_later k (l.map fun p => Eff.later p.1 p.2)
          { s with world := f s.world, chan := s.chan ++ c, wake := s.wake ++ w }
        simp only [step, h.1, h.2]
        simp
    simp only [run, mergedOf_append, storedOf_append, List.append_assoc]
    rw [h2, ← List.append_assoc, h1, List.append_assoc]

/-! ### What is executed -/

theorem applyEffs_ran (fs : List (Eff E)) (s : St W E) :
    (∀ k, ranOf k (applyEffs s fs).2 = []) ∧ .ended ∉ (applyEffs s fs).2 := by
  induction fs generalizing s with
  | nil => simp [applyEffs]
  | cons f fs ih =>
    have h1 := ih (applyEff s f).1
    refine ⟨fun k => ?_, ?_⟩
    · simp only [applyEffs, ranOf_append, h1.1]
      cases f <;> simp [applyEff, ranOf]
    · simp only [applyEffs, List.mem_append, not_or]
      refine ⟨?_, h1.2⟩
      cases f <;> simp [applyEff]

theorem perform_ran (P : Prog W E) (c : Call E) (s : St W E) :
    (∀ k, ranOf k (perform P c s).2 = []) ∧ .ended ∉ (perform P c s).2 :=
  applyEffs_ran (P.call c s.world).2 { s with world := (P.call c s.world).1 }

theorem runEntry_ran (P : Prog W E) (k0 : Kind) (e0 : E) (next : Phase) (s : St W E) :
    (∀ k, ranOf k (runEntry P k0 e0 next s).2 = if k0 = k then [e0] else []) ∧
    .ended ∉ (runEntry P k0 e0 next s).2 := by
  have h := perform_ran P (.entry k0 e0) s
  refine ⟨fun k => ?_, by simp [runEntry, h.2]⟩
  have : ranOf k (Hist.ran k0 e0 :: (perform P (.entry k0 e0) s).2) =
      (if k0 = k then [e0] else []) ++ ranOf k (perform P (.entry k0 e0) s).2 := by
    by_cases hk : k0 = k <;> simp [ranOf, hk]
  simp only [runEntry]
  rw [this, h.1]
  simp

theorem runEntry_frame (P : Prog W E) (k0 : Kind) (e0 : E) (next : Phase) (s : St W E) :
    (runEntry P k0 e0 next s).1.loopCount = s.loopCount ∧
    (runEntry P k0 e0 next s).1.params = s.params ∧
    (runEntry P k0 e0 next s).1.phase = next ∧
    (runEntry P k0 e0 next s).1.received = s.received := by
  have h := perform_frame P (.entry k0 e0) s
  simp only [runEntry]
  exact ⟨h.1, h.2.2.1, trivial, h.2.1⟩

theorem ranOf_undeferred (k : Kind) (l : List E) : ranOf k (l.map .undeferred) = [] := by
  simp [ranOf, List.filterMap_map, Function.comp_def]

theorem ranOf_histOf_kept (k : Kind) (r : Roster E) : ranOf k (histOf .kept r) = [] := by
  simp [ranOf, histOf, List.filterMap_append, List.filterMap_map, Function.comp_def]

theorem ranOf_histOf_merged (k : Kind) (r : Roster E) : ranOf k (histOf .merged r) = [] := by
  simp [ranOf, histOf, List.filterMap_append, List.filterMap_map, Function.comp_def]

theorem ranOf_wake (k : Kind) (l : List E) :
    ranOf k (l.flatMap fun e => [.new .awake e, .entered .awake e]) = [] := by
  induction l with
  | nil => rfl
  | cons x l ih => rw [List.flatMap_cons, ranOf_append, ih]; simp [ranOf]

/-- Most operations executed by one flush under loop limit `l`. -/
def opBound (l : Nat) : Nat := if l = 0 then 0 else max 1 (l - 1)

/-- Invariant behind the bound; `c` counts the operations executed so far. -/
def BoundInv (l c : Nat) (s : St W E) : Prop :=
  c ≤ opBound l ∧ (s.phase ≠ .idle → s.params.loopLimit = some l) ∧
  match s.phase with
  | .idle => c = 0
  | .recv | .services | .merge | .targets | .dispose | .top | .despawn | .limit =>
    c + 1 ≤ s.loopCount ∨ (c = 0 ∧ s.loopCount = 0)
  | .cleanups .unblock | .cancels .unblock | .unblock | .queue =>
    1 ≤ l ∧ c + 1 ≤ s.loopCount ∧
      (s.loopCount < l ∨ c = 0 ∨ (c + 2 ≤ s.loopCount ∧ s.loopCount ≤ l))
  | .cleanups .queueCheck | .cancels .queueCheck | .queueCheck => 1 ≤ l ∧ c ≤ s.loopCount
  | .cleanups _ | .cancels _ | .awake => c + 1 ≤ s.loopCount

theorem tick_bound (P : Prog W E) (l : Nat) (hP : ∀ w, (P.params w).loopLimit = some l)
    (c : Nat) (s : St W E) (hw : WF s) (hb : BoundInv l c s) (he : .ended ∉ (tick P s).2) :
    BoundInv l (c + (ranOf .queue (tick P s).2).length) (tick P s).1 := by
  obtain ⟨w, ros, lat, ch, wk, lc, rc, pa, ph⟩ := s
  cases ph <;> simp only [tick] at he ⊢
  case idle => simp_all [BoundInv]
  case recv =>
    cases ch with
    | nil => simpa [BoundInv] using hb
    | cons x rest =>
      have h := perform_frame P (.item x) (⟨w, ros, lat, rest, wk, lc, rc, pa, .recv⟩ : St W E)
      have h2 := perform_ran P (.item x) (⟨w, ros, lat, rest, wk, lc, rc, pa, .recv⟩ : St W E)
      have a : ∀ l : List (Hist E), ranOf .queue (.received x :: l) = ranOf .queue l := by
        intro l; simp [ranOf]
      by_cases hr : reached pa.channelLimit rc = true <;>
        simp_all [BoundInv]
  case services =>
    have h := perform_frame P .services
      (⟨w, ros.processDeferals, lat, ch, wk, lc, rc, pa, .services⟩ : St W E)
    have h2 := perform_ran P .services
      (⟨w, ros.processDeferals, lat, ch, wk, lc, rc, pa, .services⟩ : St W E)
    simp_all [BoundInv, ranOf_undeferred]
  case merge =>
    simp only [ranOf_append, ranOf_histOf_merged, ranOf_wake]
    simpa [BoundInv] using hb
  case targets =>
    have h := perform_frame P .targets (⟨w, ros, lat, ch, wk, lc, rc, pa, .targets⟩ : St W E)
    have h2 := perform_ran P .targets (⟨w, ros, lat, ch, wk, lc, rc, pa, .targets⟩ : St W E)
    simp_all [BoundInv]
  case dispose =>
    cases hd : ros.disposed.getLast? with
    | none => simpa [BoundInv] using hb
    | some x => simpa [BoundInv, runEntry_frame, runEntry_ran] using hb
  case top =>
    by_cases hr : ros.isEmpty = true
    · simp [hr] at he
    · simpa [BoundInv, hr] using hb
  case despawn =>
    cases hd : ros.despawn with
    | nil => simpa [BoundInv] using hb
    | cons x rest => simpa [BoundInv, runEntry_frame, runEntry_ran] using hb
  case limit =>
    by_cases hr : reached (P.params w).loopLimit lc = true
    · simp [hr] at he
    · simp only [hr, if_false, Bool.false_eq_true]
      simp only [BoundInv] at hb ⊢
      simp only [hP, reached, decide_eq_true_eq] at hr ⊢
      refine ⟨by simpa using hb.1, fun _ => trivial, by omega, ?_, ?_⟩ <;>
        simp only [ranOf_nil, List.length_nil, Nat.add_zero] <;> omega
  case cleanups ret =>
    have hret := hw.2
    simp only at hret
    cases hd : ros.cleanup.getLast? with
    | none => rcases hret with rfl | rfl | rfl <;> simpa [BoundInv] using hb
    | some x =>
      rcases hret with rfl | rfl | rfl <;> simpa [BoundInv, runEntry_frame, runEntry_ran] using hb
  case cancels ret =>
    have hret := hw.2
    simp only at hret
    cases hd : ros.cancel with
    | nil => rcases hret with rfl | rfl | rfl <;> simpa [BoundInv] using hb
    | cons x rest =>
      rcases hret with rfl | rfl | rfl <;> simpa [BoundInv, runEntry_frame, runEntry_ran] using hb
  case unblock =>
    cases hd : ros.unblock with
    | nil => simpa [BoundInv] using hb
    | cons x rest => simpa [BoundInv, runEntry_frame, runEntry_ran] using hb
  case queue =>
    cases hd : ros.queue with
    | nil =>
      simp only [BoundInv] at hb ⊢
      exact ⟨by simpa using hb.1, by simpa using hb.2.1, by simpa using hb.2.2.2.1⟩
    | cons x rest =>
      simp only [BoundInv] at hb
      simp only [BoundInv, runEntry_frame, runEntry_ran]
      refine ⟨?_, by simpa using hb.2.1, hb.2.2.1, ?_⟩
      · simp only [opBound, if_true, List.length_singleton]
        have := hb.2.2
        rw [if_neg (by omega)]
        omega
      · have := hb.2.2
        simp only [if_true, List.length_singleton]
        omega
  case queueCheck =>
    simp only [BoundInv] at hb
    by_cases hr : reached pa.loopLimit (lc + 1) = true
    · simp only [hr, if_true, BoundInv]
      refine ⟨by simpa using hb.1, by simpa using hb.2.1, ?_⟩
      have := hb.2.2
      simp only [ranOf_nil, List.length_nil, Nat.add_zero]
      omega
    · simp only [hr, if_false, BoundInv, Bool.false_eq_true]
      have hl : pa.loopLimit = some l := hb.2.1 (by simp)
      rw [hl] at hr
      simp only [reached, decide_eq_true_eq] at hr
      refine ⟨by simpa using hb.1, by simpa using hb.2.1, hb.2.2.1, ?_, Or.inl (by omega)⟩
      have := hb.2.2
      simp only [ranOf_nil, List.length_nil, Nat.add_zero]
      omega
  case awake =>
    cases hd : ros.awake with
    | nil =>
      simp only [BoundInv] at hb ⊢
      exact ⟨by simpa using hb.1, by simpa using hb.2.1, Or.inl (by simpa using hb.2.2)⟩
    | cons x rest => simpa [BoundInv, runEntry_frame, runEntry_ran] using hb

theorem run_bound (P : Prog W E) (l : Nat) (hP : ∀ w, (P.params w).loopLimit = some l)
    (vs : List (Ev W E)) (c : Nat) (s : St W E) (hw : WF s) (hb : BoundInv l c s)
    (he : .ended ∉ (run P s vs).2) :
    BoundInv l (c + (ranOf .queue (run P s vs).2).length) (run P s vs).1 := by
  induction vs generalizing s c with
  | nil => simpa [run] using hb
  | cons v vs ih =>
    simp only [run, List.mem_append, not_or, ranOf_append, List.length_append] at he ⊢
    rw [← Nat.add_assoc]
    refine ih _ _ (step_WF P s v hw) ?_ he.2
    cases v with
    | tick => exact tick_bound P l hP c s hw hb he.1
    | env f l' c' w' =>
      obtain ⟨_, h2, _, _, h5, _, h7, _, _, _, h11, _⟩ := step_env_frame l'
        { s with world := f s.world, chan := s.chan ++ c', wake := s.wake ++ w' }
      simp only [step, BoundInv, h2, h5, h7, h11]
      simpa [BoundInv] using hb

/-! ### Progress -/

/-- Before the first operation of a flush runs, the operations waiting at its start
are still there to be run. -/
def Ready (s : St W E) : Prop :=
  match s.phase with
  | .idle => s.later.queue ≠ []
  | .recv | .services | .merge => s.later.queue ≠ [] ∧ s.loopCount = 0
  | .targets | .dispose | .top | .despawn | .limit => s.roster.queue ≠ [] ∧ s.loopCount = 0
  | .cleanups .unblock | .cancels .unblock | .unblock | .queue => s.roster.queue ≠ []
  | _ => False

theorem perform_queue (P : Prog W E) (c : Call E) (s : St W E) (hp : noPurge (perform P c s).2)
    (h : s.roster.queue ≠ []) : (perform P c s).1.roster.queue ≠ [] := by
  have := (perform_fifo P c .queue s hp).2
  simp only [Roster.get] at this
  rw [this]
  simp [h]

theorem perform_later_queue (P : Prog W E) (c : Call E) (s : St W E)
    (h : s.later.queue ≠ []) : (perform P c s).1.later.queue ≠ [] := by
  have := (perform_later P c .queue s).2
  simp only [Roster.get] at this
  rw [this]
  simp [h]

theorem runEntry_queue (P : Prog W E) (k : Kind) (e : E) (n : Phase) (s : St W E)
    (hp : noPurge (runEntry P k e n s).2)
    (h : s.roster.queue ≠ []) : (runEntry P k e n s).1.roster.queue ≠ [] := by
  have := (runEntry_fifo P k e n s .queue hp).2
  simp only [Roster.get] at this
  rw [this]
  simp [h]

theorem tick_progress (P : Prog W E)
    (hP : ∀ w, (P.params w).loopLimit ≠ some 0) (s : St W E)
    (hr : Ready s) (hp : noPurge (tick P s).2) :
    ranOf .queue (tick P s).2 ≠ [] ∨ (Ready (tick P s).1 ∧ .ended ∉ (tick P s).2) := by
  obtain ⟨w, ros, lat, ch, wk, lc, rc, pa, ph⟩ := s
  cases ph <;> simp only [tick] at hp ⊢
  case idle => right; simpa [Ready] using hr
  case recv =>
    right
    cases ch with
    | nil => simpa [Ready] using hr
    | cons x rest =>
      have h := perform_frame P (.item x) (⟨w, ros, lat, rest, wk, lc, rc, pa, .recv⟩ : St W E)
      have h2 := perform_ran P (.item x) (⟨w, ros, lat, rest, wk, lc, rc, pa, .recv⟩ : St W E)
      have h3 := perform_later_queue P (.item x)
        (⟨w, ros, lat, rest, wk, lc, rc, pa, .recv⟩ : St W E) hr.1
      have h4 := hr.2
      by_cases hr' : reached pa.channelLimit rc = true <;> simp_all [Ready]
  case services =>
    right
    have h := perform_frame P .services
      (⟨w, ros.processDeferals, lat, ch, wk, lc, rc, pa, .services⟩ : St W E)
    have h2 := perform_ran P .services
      (⟨w, ros.processDeferals, lat, ch, wk, lc, rc, pa, .services⟩ : St W E)
    have h3 := perform_later_queue P .services
      (⟨w, ros.processDeferals, lat, ch, wk, lc, rc, pa, .services⟩ : St W E) hr.1
    have h4 := hr.2
    simp_all [Ready]
  case merge =>
    right
    refine ⟨?_, ?_⟩
    · have := hr.1
      have := hr.2
      simp_all [Ready, Roster.append]
    · simp [histOf]
  case targets =>
    right
    have h := perform_frame P .targets (⟨w, ros, lat, ch, wk, lc, rc, pa, .targets⟩ : St W E)
    have h2 := perform_ran P .targets (⟨w, ros, lat, ch, wk, lc, rc, pa, .targets⟩ : St W E)
    have h3 := perform_queue P .targets (⟨w, ros, lat, ch, wk, lc, rc, pa, .targets⟩ : St W E) hp hr.1
    have h4 := hr.2
    simp_all [Ready]
  case dispose =>
    right
    cases hd : ros.disposed.getLast? with
    | none => simpa [Ready] using hr
    | some x =>
      simp only [hd] at hp
      have h3 := runEntry_queue P _ _ _ _ hp hr.1
      have h4 := hr.2
      simp only [Ready, runEntry_frame]
      exact ⟨⟨h3, h4⟩, (runEntry_ran P _ _ _ _).2⟩
  case top =>
    right
    by_cases he : ros.isEmpty = true
    · have := hr.1
      rw [isEmpty_eq he] at this
      simp at this
    · simpa [he, Ready] using hr
  case despawn =>
    right
    cases hd : ros.despawn with
    | nil => simpa [Ready] using hr
    | cons x rest =>
      simp only [hd] at hp
      have h3 := runEntry_queue P _ _ _ _ hp hr.1
      have h4 := hr.2
      simp only [Ready, runEntry_frame]
      exact ⟨⟨h3, h4⟩, (runEntry_ran P _ _ _ _).2⟩
  case limit =>
    right
    have h0 : lc = 0 := hr.2
    have : reached (P.params w).loopLimit lc = false := by
      have := hP w
      cases hl : (P.params w).loopLimit with
      | none => rfl
      | some n => simp [reached, h0]; intro h; subst h; exact this hl
    simp only [this, if_false, Bool.false_eq_true]
    exact ⟨hr.1, by simp⟩
  case cleanups ret =>
    right
    cases ret <;> (try (simp [Ready] at hr; done))
    cases hd : ros.cleanup.getLast? with
    | none => simpa [Ready] using hr
    | some x =>
      simp only [hd] at hp
      have h3 := runEntry_queue P _ _ _ _ hp hr
      simp only [Ready, runEntry_frame]
      exact ⟨h3, (runEntry_ran P _ _ _ _).2⟩
  case cancels ret =>
    right
    cases ret <;> (try (simp [Ready] at hr; done))
    cases hd : ros.cancel with
    | nil => simpa [Ready] using hr
    | cons x rest =>
      simp only [hd] at hp
      have h3 := runEntry_queue P _ _ _ _ hp hr
      simp only [Ready, runEntry_frame]
      exact ⟨h3, (runEntry_ran P _ _ _ _).2⟩
  case unblock =>
    right
    cases hd : ros.unblock with
    | nil => simpa [Ready] using hr
    | cons x rest =>
      simp only [hd] at hp
      have h3 := runEntry_queue P _ _ _ _ hp hr
      simp only [Ready, runEntry_frame]
      exact ⟨h3, (runEntry_ran P _ _ _ _).2⟩
  case queue =>
    cases hd : ros.queue with
    | nil => exact absurd hd hr
    | cons x rest =>
      left
      simp [runEntry_ran]
  case queueCheck => exact absurd hr (by simp [Ready])
  case awake => exact absurd hr (by simp [Ready])

theorem Ready.mono {s s' : St W E} {l : List E} (hr : Ready s) (h1 : s'.roster = s.roster)
    (h2 : s'.phase = s.phase) (h3 : s'.loopCount = s.loopCount)
    (h4 : s'.later.queue = s.later.queue ++ l) : Ready s' := by
  simp only [Ready, h1, h2, h3, h4] at hr ⊢
  obtain ⟨w, ros, lat, ch, wk, lc, rc, pa, ph⟩ := s
  cases ph <;> simp_all
  all_goals (rename_i r; cases r <;> simp_all)

theorem run_progress (P : Prog W E) (hP : ∀ w, (P.params w).loopLimit ≠ some 0)
    (vs : List (Ev W E)) (s : St W E) (hr : Ready s) (hp : noPurge (run P s vs).2)
    (he : .ended ∈ (run P s vs).2) : ranOf .queue (run P s vs).2 ≠ [] := by
  induction vs generalizing s with
  | nil => simp [run] at he
  | cons v vs ih =>
    have hp1 : noPurge (step P s v).2 := fun e h => hp e (by simp [run, h])
    have hp2 : noPurge (run P (step P s v).1 vs).2 := fun e h => hp e (by simp [run, h])
    have h1 : ranOf .queue (step P s v).2 ≠ [] ∨
        (Ready (step P s v).1 ∧ .ended ∉ (step P s v).2) := by
      cases v with
      | tick => exact tick_progress P hP s hr hp1
      | env f l' c' w' =>
        right
        obtain ⟨h1, h2, _, _, h5, _, _, _, _, _, _, _, _, h14, h15⟩ := step_env_frame l'
          { s with world := f s.world, chan := s.chan ++ c', wake := s.wake ++ w' }
        obtain ⟨l, hl⟩ := h14 .queue
        simp only [Roster.get] at hl
        refine ⟨?_, h15⟩
        exact Ready.mono hr h1 h2 h5 hl
    simp only [run, ranOf_append, List.mem_append] at he ⊢
    rcases h1 with h1 | ⟨h1, h2⟩
    · simp [h1]
    · have := ih _ h1 hp2 (he.resolve_left h2)
      simp [this]

/-! ### The channel -/

theorem runEntry_chan (P : Prog W E) (k : Kind) (e : E) (n : Phase) (s : St W E) :
    receivedOf (runEntry P k e n s).2 = [] ∧
    ∃ l, (runEntry P k e n s).1.chan = s.chan ++ l := by
  have h := perform_chan P (.entry k e) s
  refine ⟨?_, h.2⟩
  have : receivedOf (Hist.ran k e :: (perform P (.entry k e) s).2) =
    receivedOf (perform P (.entry k e) s).2 := by simp [receivedOf]
  simp only [runEntry]
  rw [this, h.1]

theorem receivedOf_histOf (f : Kind → E → Hist E) (r : Roster E)
    (hf : ∀ k e e', f k e ≠ .received e') : receivedOf (histOf f r) = [] := by
  simp only [receivedOf, List.filterMap_eq_nil_iff]
  intro h hm
  simp only [histOf, List.mem_flatMap, List.mem_map] at hm
  obtain ⟨k', _, e', _, rfl⟩ := hm
  have := hf k' e'
  cases hh : f k' e' <;> simp_all

theorem receivedOf_wake (l : List E) :
    receivedOf (l.flatMap fun e => [.new .awake e, .entered .awake e]) = [] := by
  induction l with
  | nil => rfl
  | cons x l ih => rw [List.flatMap_cons, receivedOf_append, ih]; simp [receivedOf]

theorem tick_chan (P : Prog W E) (s : St W E) :
    ∃ sent, receivedOf (tick P s).2 ++ (tick P s).1.chan = s.chan ++ sent := by
  obtain ⟨w, ros, lat, ch, wk, lc, rc, pa, ph⟩ := s
  cases ph <;> simp only [tick]
  case idle => exact ⟨[], by simp⟩
  case recv =>
    cases ch with
    | nil => exact ⟨[], by simp⟩
    | cons x rest =>
      obtain ⟨h1, l, h2⟩ := perform_chan P (.item x)
        (⟨w, ros, lat, rest, wk, lc, rc, pa, .recv⟩ : St W E)
      have a : ∀ l : List (Hist E), receivedOf (.received x :: l) = x :: receivedOf l := by
        intro l; simp [receivedOf]
      by_cases hr : reached pa.channelLimit rc = true <;>
        exact ⟨l, by simp [hr, a, h1, h2]⟩
  case services =>
    obtain ⟨h1, l, h2⟩ := perform_chan P .services
      (⟨w, ros.processDeferals, lat, ch, wk, lc, rc, pa, .services⟩ : St W E)
    refine ⟨l, ?_⟩
    simp only [receivedOf_append, h1, h2]
    simp [receivedOf, List.filterMap_map, Function.comp_def]
  case merge =>
    exact ⟨[], by simp [receivedOf_histOf, receivedOf_wake]⟩
  case targets =>
    obtain ⟨h1, l, h2⟩ := perform_chan P .targets
      (⟨w, ros, lat, ch, wk, lc, rc, pa, .targets⟩ : St W E)
    exact ⟨l, by simp [h1, h2]⟩
  case top => split <;> exact ⟨[], by simp [receivedOf]⟩
  case limit =>
    by_cases hr : reached (P.params w).loopLimit lc = true
    · refine ⟨[], ?_⟩
      simp only [hr, if_true, receivedOf_append]
      rw [receivedOf_histOf _ _ (by simp)]
      simp [receivedOf]
    · exact ⟨[], by simp [hr]⟩
  case queueCheck => split <;> exact ⟨[], by simp⟩
  case dispose =>
    cases hd : ros.disposed.getLast? with
    | none => exact ⟨[], by simp⟩
    | some x =>
      simp only [runEntry_chan, List.nil_append]
  case despawn =>
    cases hd : ros.despawn with
    | nil => exact ⟨[], by simp⟩
    | cons x rest =>
      simp only [runEntry_chan, List.nil_append]
  case cleanups ret =>
    cases hd : ros.cleanup.getLast? with
    | none => exact ⟨[], by simp⟩
    | some x =>
      simp only [runEntry_chan, List.nil_append]
  case cancels ret =>
    cases hd : ros.cancel with
    | nil => exact ⟨[], by simp⟩
    | cons x rest =>
      simp only [runEntry_chan, List.nil_append]
  case unblock =>
    cases hd : ros.unblock with
    | nil => exact ⟨[], by simp⟩
    | cons x rest =>
      simp only [runEntry_chan, List.nil_append]
  case queue =>
    cases hd : ros.queue with
    | nil => exact ⟨[], by simp⟩
    | cons x rest =>
      simp only [runEntry_chan, List.nil_append]
  case awake =>
    cases hd : ros.awake with
    | nil => exact ⟨[], by simp⟩
    | cons x rest =>
      simp only [runEntry_chan, List.nil_append]

theorem step_chan (P : Prog W E) (s : St W E) (v : Ev W E) :
    ∃ sent, receivedOf (step P s v).2 ++ (step P s v).1.chan = s.chan ++ sent := by
  cases v with
  | tick => exact tick_chan P s
  | env f l c w =>
    obtain ⟨_, _, h3, _, _, _, _, _, _, _, _, h12, _⟩ := step_env_frame l
      { s with world := f s.world, chan := s.chan ++ c, wake := s.wake ++ w }
    exact ⟨c, by simp only [step, h3, h12]; simp⟩

theorem run_chan (P : Prog W E) (vs : List (Ev W E)) (s : St W E) :
    ∃ sent, receivedOf (run P s vs).2 ++ (run P s vs).1.chan = s.chan ++ sent := by
  induction vs generalizing s with
  | nil => exact ⟨[], by simp [run]⟩
  | cons v vs ih =>
    obtain ⟨a, ha⟩ := step_chan P s v
    obtain ⟨b, hb⟩ := ih (step P s v).1
    refine ⟨a ++ b, ?_⟩
    simp only [run, receivedOf_append, List.append_assoc]
    rw [hb, ← List.append_assoc, ha, List.append_assoc]

theorem recv_bound (P : Prog W E) (n : Nat) (vs : List (Ev W E)) (s : St W E)
    (hn : s.params.channelLimit = some n) (hr : s.received ≤ n)
    (hs : staysReceiving P s vs) :
    (receivedOf (run P s vs).2).length + s.received ≤ n + 1 := by
  induction vs generalizing s with
  | nil => simp [run]; omega
  | cons v vs ih =>
    obtain ⟨hph, hs'⟩ := hs
    simp only [run, receivedOf_append, List.length_append]
    cases v with
    | env f l c w =>
      obtain ⟨_, _, _, _, _, h6, h7, _, _, _, _, h12, _⟩ := step_env_frame l
        { s with world := f s.world, chan := s.chan ++ c, wake := s.wake ++ w }
      have h6' : (step P s (.env f l c w)).1.received = s.received := h6
      have h7' : (step P s (.env f l c w)).1.params = s.params := h7
      have h12' : receivedOf (step P s (.env f l c w)).2 = [] := h12
      have := ih _ (by rw [h7']; exact hn) (by rw [h6']; exact hr) hs'
      rw [h6'] at this
      rw [h12']
      simpa using this
    | tick =>
      have stop : ∀ s' : St W E, s'.phase ≠ .recv → staysReceiving P s' vs →
          receivedOf (run P s' vs).2 = [] := by
        intro s' h1 h2
        cases vs with
        | nil => rfl
        | cons v vs => exact absurd h2.1 h1
      obtain ⟨w, ros, lat, ch, wk, lc, rc, pa, ph⟩ := s
      simp only at hph
      subst hph
      cases ch with
      | nil =>
        rw [stop _ (by simp [step, tick]) hs']
        simp [step, tick]
        simp only at hr
        omega
      | cons x rest =>
        simp only at hn hr
        have h := perform_frame P (.item x) (⟨w, ros, lat, rest, wk, lc, rc, pa, .recv⟩ : St W E)
        have h1 := perform_chan P (.item x) (⟨w, ros, lat, rest, wk, lc, rc, pa, .recv⟩ : St W E)
        have a : ∀ l : List (Hist E), receivedOf (.received x :: l) = x :: receivedOf l := by
          intro l; simp [receivedOf]
        by_cases hr' : n ≤ rc
        · rw [stop _ (by simp [step, tick, hn, reached, hr']) hs']
          simp only [step, tick, hn, reached, hr', decide_true, if_true, a, h1.1]
          simp
          omega
        · have hs2 : step P (⟨w, ros, lat, x :: rest, wk, lc, rc, pa, .recv⟩ : St W E) .tick =
              ({ (perform P (.item x) ⟨w, ros, lat, rest, wk, lc, rc, pa, .recv⟩).1 with
                  received := rc + 1 },
                .received x :: (perform P (.item x) ⟨w, ros, lat, rest, wk, lc, rc, pa, .recv⟩).2) := by
            simp [step, tick, hn, reached, hr']
          rw [hs2] at hs' ⊢
          have := ih _ (by simp only [h]; exact hn) (by simp only; omega) hs'
          simp only [a, h1.1, List.length_singleton] at this ⊢
          omega

end Verif.Flush
