import Verif.Sched.Spec
import Verif.Flush.Lemmas
import Verif.Input.Lemmas

namespace Verif.Sched

open Verif.Input Verif.Flush

set_option linter.unusedSectionVars false
set_option linter.unusedSimpArgs false

variable {W E S T U : Type} [DecidableEq E] [DecidableEq S]

/-- How often a list of requests asks for an execution of `n`. -/
def asked (n : E) (fs : List (Eff E)) : Nat :=
  fs.countP fun
    | .put k e => decide (slot k = .queue) && decide (e = n)
    | .later k e => decide (slot k = .queue) && decide (e = n)
    | _ => false

/-- Contract of a program with respect to waiting inputs. -/
def Careful (P : Prog W E) (pend : W → E → Nat) : Prop :=
  ∀ c w n,
    (.purge n ∈ (P.call c w).2 → pend (P.call c w).1 n = 0) ∧
    (.purge n ∉ (P.call c w).2 →
      pend (P.call c w).1 n ≤
        pend w n - (if c = .entry .queue n then 1 else 0) + asked n (P.call c w).2)

theorem applyEffs_asked (n : E) (fs : List (Eff E)) (s : St W E) :
    newCount .queue n (applyEffs s fs).2 = asked n fs ∧
    ranCount .queue n (applyEffs s fs).2 = 0 ∧
    (.purged n ∈ (applyEffs s fs).2 ↔ .purge n ∈ fs) := by
  induction fs generalizing s with
  | nil => simp [applyEffs, asked]
  | cons f fs ih =>
    have h := ih (applyEff s f).1
    simp only [applyEffs, newCount_append, ranCount_append, List.mem_append, h, asked,
      List.countP_cons, List.mem_cons]
    cases f <;> simp [applyEff, newCount, ranCount, List.countP_cons] <;> omega

theorem perform_asked (P : Prog W E) (c : Call E) (n : E) (s : St W E) :
    newCount .queue n (perform P c s).2 = asked n (P.call c s.world).2 ∧
    ranCount .queue n (perform P c s).2 = 0 ∧
    (.purged n ∈ (perform P c s).2 ↔ .purge n ∈ (P.call c s.world).2) ∧
    (perform P c s).1.world = (P.call c s.world).1 := by
  have h := applyEffs_asked n (P.call c s.world).2 { s with world := (P.call c s.world).1 }
  have h2 := applyEffs_frame (P.call c s.world).2 { s with world := (P.call c s.world).1 }
  exact ⟨h.1, h.2.1, h.2.2, h2.1⟩

/-- A step calls nothing, or calls out once. -/
def Called (P : Prog W E) (n : E) (s : St W E) (r : St W E × List (Hist E)) : Prop :=
  (r.1.world = s.world ∧ newCount .queue n r.2 = 0 ∧ ranCount .queue n r.2 = 0 ∧
    .purged n ∉ r.2) ∨
  ∃ c, r.1.world = (P.call c s.world).1 ∧
    newCount .queue n r.2 = asked n (P.call c s.world).2 ∧
    ranCount .queue n r.2 = (if c = .entry .queue n then 1 else 0) ∧
    (.purged n ∈ r.2 ↔ .purge n ∈ (P.call c s.world).2) ∧
    (c = .entry .queue n → 1 ≤ Flush.pending .queue n s)

theorem runEntry_called (P : Prog W E) (k0 : Kind) (hk : k0 ≠ .deferred) (e0 : E) (next : Phase)
    (n : E) (s s' : St W E) (hs : s'.world = s.world)
    (hq : k0 = .queue → e0 = n → 1 ≤ Flush.pending .queue n s) : Called P n s (runEntry P k0 e0 next s') := by
  right
  refine ⟨.entry k0 e0, ?_⟩
  have h := perform_asked P (.entry k0 e0) n s'
  rw [hs] at h
  have h1 : newCount .queue n (Hist.ran k0 e0 :: (perform P (.entry k0 e0) s').2) =
      newCount .queue n (perform P (.entry k0 e0) s').2 := by simp [newCount, List.countP_cons]
  have h2 : ranCount .queue n (Hist.ran k0 e0 :: (perform P (.entry k0 e0) s').2) =
      ranCount .queue n (perform P (.entry k0 e0) s').2 +
        (if (decide (slot k0 = .queue) && decide (e0 = n)) = true then 1 else 0) := by
    simp [ranCount, List.countP_cons]
  simp only [runEntry]
  refine ⟨h.2.2.2, by rw [h1, h.1], ?_, by simp [h.2.2.1], by simpa using hq⟩
  rw [h2, h.2.1]
  cases k0 <;> simp_all [slot]

theorem tick_called (P : Prog W E) (n : E) (s : St W E) : Called P n s (tick P s) := by
  obtain ⟨w, ros, lat, ch, wk, lc, rc, pa, ph⟩ := s
  cases ph <;> simp only [tick]
  case idle => left; simp
  case recv =>
    cases ch with
    | nil => left; simp
    | cons x rest =>
      right
      refine ⟨.item x, ?_⟩
      have h := perform_asked P (.item x) n (⟨w, ros, lat, rest, wk, lc, rc, pa, .recv⟩ : St W E)
      have a : ∀ l : List (Hist E), newCount .queue n (.received x :: l) = newCount .queue n l := by
        intro l; simp [newCount, List.countP_cons]
      have b : ∀ l : List (Hist E), ranCount .queue n (.received x :: l) = ranCount .queue n l := by
        intro l; simp [ranCount, List.countP_cons]
      by_cases hr : reached pa.channelLimit rc = true <;> simp [hr, a, b, h]
  case services =>
    right
    refine ⟨.services, ?_⟩
    have h := perform_asked P .services n
      (⟨w, ros.processDeferals, lat, ch, wk, lc, rc, pa, .services⟩ : St W E)
    simp [newCount_append, ranCount_append, newCount_undeferred, ranCount_undeferred, h]
  case merge =>
    left
    rw [newCount_append, ranCount_append, newCount_histOf _ _ _ _ (by simp),
      ranCount_histOf _ _ _ _ (by simp), newCount_wake, ranCount_wake]
    refine ⟨rfl, by simp, by simp, ?_⟩
    simp only [List.mem_append, not_or]
    exact ⟨purged_histOf _ _ _ (by simp), by simp⟩
  case targets =>
    right
    refine ⟨.targets, ?_⟩
    have h := perform_asked P .targets n (⟨w, ros, lat, ch, wk, lc, rc, pa, .targets⟩ : St W E)
    simp [h]
  case top => left; split <;> simp [newCount, ranCount]
  case limit =>
    left
    by_cases hr : reached (P.params w).loopLimit lc = true
    · simp only [hr, if_true, newCount_append, ranCount_append]
      rw [newCount_histOf _ _ _ _ (by simp), ranCount_histOf _ _ _ _ (by simp)]
      refine ⟨trivial, by simp [newCount], by simp [ranCount], ?_⟩
      simp only [List.mem_append, not_or]
      exact ⟨purged_histOf _ _ _ (by simp), by simp⟩
    · simp [hr]
  case queueCheck => left; split <;> simp
  case dispose =>
    cases hd : ros.disposed.getLast? with
    | none => left; simp
    | some x => exact runEntry_called P _ (by simp) _ _ n _ _ rfl (by simp)
  case despawn =>
    cases hd : ros.despawn with
    | nil => left; simp
    | cons x rest => exact runEntry_called P _ (by simp) _ _ n _ _ rfl (by simp)
  case cleanups ret =>
    cases hd : ros.cleanup.getLast? with
    | none => left; simp
    | some x => exact runEntry_called P _ (by simp) _ _ n _ _ rfl (by simp)
  case cancels ret =>
    cases hd : ros.cancel with
    | nil => left; simp
    | cons x rest => exact runEntry_called P _ (by simp) _ _ n _ _ rfl (by simp)
  case unblock =>
    cases hd : ros.unblock with
    | nil => left; simp
    | cons x rest => exact runEntry_called P _ (by simp) _ _ n _ _ rfl (by simp)
  case queue =>
    cases hd : ros.queue with
    | nil => left; simp
    | cons x rest =>
      refine runEntry_called P _ (by simp) _ _ n _ _ rfl (fun _ h => ?_)
      subst h
      simp only [Flush.pending, waiting, hd, List.count_cons_self]
      omega
  case awake =>
    cases hd : ros.awake with
    | nil => left; simp
    | cons x rest => exact runEntry_called P _ (by simp) _ _ n _ _ rfl (by simp)

theorem step_covered (P : Prog W E) (pend : W → E → Nat) (hc : Careful P pend) (s : St W E)
    (hw : WF s) (v : Flush.Ev W E) (hv : CarefulEv pend v) (n : E)
    (hi : pend s.world n ≤ Flush.pending .queue n s) :
    pend (step P s v).1.world n ≤ Flush.pending .queue n (step P s v).1 := by
  cases v with
  | tick =>
    rcases tick_called P n s with ⟨h1, h2, h3, h4⟩ | ⟨c, h1, h2, h3, h4, h6⟩
    · have := tick_conserve P s hw .queue n h4
      simp only [Flush.step, h1]
      omega
    · simp only [Flush.step, h1]
      have hcc := hc c s.world n
      by_cases hp : .purged n ∈ (tick P s).2
      · rw [hcc.1 (h4.mp hp)]; omega
      · have h5 := hcc.2 (fun h => hp (h4.mpr h))
        have := tick_conserve P s hw .queue n hp
        by_cases hcn : c = .entry .queue n
        · have := h6 hcn
          simp only [hcn, if_true] at h3 h5
          rw [← hcn] at h5
          rw [hcn] at h2
          rw [hcn] at h5 ⊢
          omega
        · simp only [hcn, if_false] at h3 h5
          omega
  | env f l c w =>
    have h := step_env_frame l { s with world := f s.world, chan := s.chan ++ c, wake := s.wake ++ w }
    have h9 := h.2.2.2.2.2.2.2.2.2.2.2.2.1 n
    have hc2 := applyEffs_conserve .queue n (l.map fun p => Eff.later p.1 p.2)
      { s with world := f s.world, chan := s.chan ++ c, wake := s.wake ++ w } h9
    have ha := applyEffs_asked n (l.map fun p => Eff.later p.1 p.2)
      { s with world := f s.world, chan := s.chan ++ c, wake := s.wake ++ w }
    have hv' := hv s.world n
    have hl : asked n (l.map fun p => Eff.later p.1 p.2) =
        l.countP fun p => decide (slot p.1 = .queue) && decide (p.2 = n) := by
      simp [asked, List.countP_map, Function.comp_def]
    simp only [Flush.step, h.2.2.2.2.2.2.2.1]
    have e : Flush.pending .queue n
      { s with world := f s.world, chan := s.chan ++ c, wake := s.wake ++ w } =
        Flush.pending .queue n s := rfl
    rw [e] at hc2
    rw [ha.1, ha.2.1, hl] at hc2
    omega

theorem run_covered (P : Prog W E) (pend : W → E → Nat) (hc : Careful P pend)
    (vs : List (Flush.Ev W E)) (s : St W E) (hw : WF s) (hv : ∀ v ∈ vs, CarefulEv pend v) (n : E)
    (hi : pend s.world n ≤ Flush.pending .queue n s) :
    pend (run P s vs).1.world n ≤ Flush.pending .queue n (run P s vs).1 := by
  induction vs generalizing s with
  | nil => exact hi
  | cons v vs ih =>
    exact ih _ (step_WF P s v hw) (fun v hv' => hv v (List.mem_cons_of_mem _ hv'))
      (step_covered P pend hc s hw v (hv v (by simp)) n hi)

/-! ### Applications made of operations with input queues are careful -/

theorem waitingAt_setNode (w : World E S T U) (m n : E) (nd : Node S T) :
    waitingAt (setNode w m nd) n =
      if n = m then (Input.pending nd).length else waitingAt w n := by
  simp only [waitingAt, setNode]
  split <;> rfl

theorem asked_append (n : E) (a b : List (Eff E)) : asked n (a ++ b) = asked n a + asked n b := by
  simp [asked]

theorem sneak_pending (nd nd' : Node S T) (a b : Bool) (s : S) (d : T) (r : Sneak)
    (h : sneakInput nd a b s d = .ok (nd', r)) :
    (Input.pending nd').length ≤ (Input.pending nd).length + (if r = .schedule then 1 else 0) := by
  unfold sneakInput at h
  split at h
  · cases h; simp
  · cases hs : nd.storage with
    | some q =>
      simp only [hs] at h
      cases h
      simp [Input.pending, hs]
    | none =>
      simp only [hs] at h
      split at h
      · split at h
        · cases h; simp
        · cases h
      · cases h; simp

theorem cleanup_pending (nd : Node S T) (s : S) :
    (Input.pending (cleanupInputs nd s)).length ≤ (Input.pending nd).length := by
  cases h : nd.storage with
  | none => cases hb : nd.buffer <;> simp [Input.pending, cleanupInputs, h, hb]
  | some q =>
    simp only [Input.pending, cleanup_storage nd q s h, h, Option.getD_some, List.length_reverse]
    exact List.length_filter_le _ _

theorem act_careful (w : World E S T U) (a : Act E S T) (n : E) :
    (.purge n ∈ (act w a).2.1 → ((act w a).1.nodes n).storage = none) ∧
    waitingAt (act w a).1 n ≤ waitingAt w n + asked n (act w a).2.1 := by
  cases a with
  | give m s d =>
    simp only [act]
    cases h : sneakInput (w.nodes m) (w.active s) true s d with
    | error e => simp
    | ok p =>
      obtain ⟨nd, r⟩ := p
      have hp := sneak_pending _ _ _ _ _ _ _ h
      by_cases hn : n = m
      · subst hn
        cases r <;> simp only [waitingAt_setNode, if_true] <;>
          simp [waitingAt, asked, slot] at hp ⊢ <;> omega
      · have hn' : m ≠ n := fun h => hn h.symm
        cases r <;> simp [waitingAt_setNode, hn, hn', asked, slot]
  | defer m s d =>
    simp only [act]
    cases h : sneakInput (w.nodes m) (w.active s) true s d with
    | error e => simp
    | ok p =>
      obtain ⟨nd, r⟩ := p
      have hp := sneak_pending _ _ _ _ _ _ _ h
      by_cases hn : n = m
      · subst hn
        cases r <;> simp only [waitingAt_setNode, if_true] <;>
          simp [waitingAt, asked, slot] at hp ⊢ <;> omega
      · have hn' : m ≠ n := fun h => hn h.symm
        cases r <;> simp [waitingAt_setNode, hn, hn', asked, slot]
  | command m s d =>
    simp only [act]
    cases h : (w.nodes m).storage with
    | none => simp
    | some q =>
      by_cases hn : n = m
      · subst hn
        simp only [waitingAt_setNode, if_true]
        simp [waitingAt, asked, slot, Input.pending, h]
      · have hn' : m ≠ n := fun h => hn h.symm
        simp [waitingAt_setNode, hn, hn', asked, slot]
  | cleanup m s =>
    simp only [act]
    have := cleanup_pending (w.nodes m) s
    by_cases hn : n = m
    · subst hn
      simp only [waitingAt_setNode, if_true]
      simpa [waitingAt, asked] using this
    · simp [waitingAt_setNode, hn, asked]
  | setActive s b => simp [act, waitingAt]
  | drop m =>
    simp only [act]
    by_cases hn : n = m
    · subst hn
      refine ⟨by simp [setNode], ?_⟩
      simp [waitingAt_setNode, Input.pending]
    · have hn' : m ≠ n := fun h => hn h.symm
      simp [waitingAt_setNode, hn, hn', asked]
  | other k e => simp [act]

theorem acts_careful (as : List (Act E S T)) (w : World E S T U) (n : E) :
    waitingAt (acts w as).1 n ≤ waitingAt w n + asked n (acts w as).2.1 := by
  induction as generalizing w with
  | nil => simp [acts]
  | cons a as ih =>
    have h1 := act_careful w a n
    simp only [acts]
    cases h : act w a with
    | mk w' r =>
      obtain ⟨fs, b⟩ := r
      rw [h] at h1
      simp only at h1
      cases b with
      | true => exact h1.2
      | false =>
        have h2 := ih w'
        simp only [asked_append]
        omega

theorem setNode_storage (w : World E S T U) (m n : E) (nd : Node S T)
    (hn : (w.nodes n).storage = none) (h : m = n → nd.storage = none) :
    ((setNode w m nd).nodes n).storage = none := by
  simp only [setNode]
  split
  · exact h (by simp_all)
  · exact hn

theorem sneak_none (nd nd' : Node S T) (a b : Bool) (s : S) (d : T) (r : Sneak)
    (h : sneakInput nd a b s d = .ok (nd', r)) (hs : nd.storage = none) : nd'.storage = none := by
  unfold sneakInput at h
  split at h
  · cases h; exact hs
  · simp only [hs] at h
    split at h
    · split at h
      · cases h; exact hs
      · cases h
    · cases h; exact hs

theorem act_none (w : World E S T U) (a : Act E S T) (n : E) (hn : (w.nodes n).storage = none) :
    ((act w a).1.nodes n).storage = none := by
  cases a with
  | give m s d =>
    simp only [act]
    cases h : sneakInput (w.nodes m) (w.active s) true s d with
    | error e => exact hn
    | ok p =>
      obtain ⟨nd, r⟩ := p
      cases r <;> exact setNode_storage _ _ _ _ hn (fun e => sneak_none _ _ _ _ _ _ _ h (e ▸ hn))
  | defer m s d =>
    simp only [act]
    cases h : sneakInput (w.nodes m) (w.active s) true s d with
    | error e => exact hn
    | ok p =>
      obtain ⟨nd, r⟩ := p
      cases r <;> exact setNode_storage _ _ _ _ hn (fun e => sneak_none _ _ _ _ _ _ _ h (e ▸ hn))
  | command m s d =>
    simp only [act]
    cases h : (w.nodes m).storage with
    | none => exact hn
    | some q =>
      refine setNode_storage _ _ _ _ hn (fun e => ?_)
      subst e
      rw [hn] at h
      cases h
  | cleanup m s =>
    refine setNode_storage _ _ _ _ hn (fun e => ?_)
    subst e
    simp only [cleanupInputs, hn]
    split <;> exact hn
  | setActive s b => exact hn
  | drop m => exact setNode_storage _ _ _ _ hn (fun _ => rfl)
  | other k e => exact hn

theorem acts_none (as : List (Act E S T)) (w : World E S T U) (n : E)
    (hn : (w.nodes n).storage = none) : ((acts w as).1.nodes n).storage = none := by
  induction as generalizing w with
  | nil => exact hn
  | cons a as ih =>
    have h1 := act_none w a n hn
    simp only [acts]
    cases h : act w a with
    | mk w' r =>
      obtain ⟨fs, b⟩ := r
      rw [h] at h1
      cases b with
      | true => exact h1
      | false => exact ih w' h1

theorem acts_purge (as : List (Act E S T)) (w : World E S T U) (n : E)
    (hp : .purge n ∈ (acts w as).2.1) : ((acts w as).1.nodes n).storage = none := by
  induction as generalizing w with
  | nil => simp [acts] at hp
  | cons a as ih =>
    have h1 := (act_careful w a n).1
    simp only [acts] at hp ⊢
    cases h : act w a with
    | mk w' r =>
      obtain ⟨fs, b⟩ := r
      rw [h] at h1
      simp only [h] at hp
      cases b with
      | true => exact h1 hp
      | false =>
        simp only [List.mem_append] at hp
        rcases hp with hp | hp
        · exact acts_none as w' n (h1 hp)
        · exact ih w' hp

theorem waitingAt_none (w : World E S T U) (n : E) (h : (w.nodes n).storage = none) :
    waitingAt w n = 0 := by
  simp [waitingAt, Input.pending, h]

theorem take_pending (nd nd' : Node S T) (i : Inp S T) (h : takeInput nd = .ok (nd', i)) :
    (Input.pending nd').length = (Input.pending nd).length - 1 := by
  simp only [takeInput, tryTakeInput] at h
  cases hs : nd.storage with
  | none => simp [hs] at h
  | some q =>
    simp only [hs] at h
    cases hl : q.getLast? with
    | none => simp [hl] at h
    | some x =>
      simp only [hl] at h
      cases h
      simp [Input.pending, hs]

theorem take_notReady (nd : Node S T) (h : takeInput nd = .error .notReady) :
    (Input.pending nd).length = 0 := by
  simp only [takeInput, tryTakeInput] at h
  cases hs : nd.storage with
  | none => simp [hs] at h
  | some q =>
    simp only [hs] at h
    cases hl : q.getLast? with
    | none => simp [Input.pending, hs, List.getLast?_eq_none_iff.mp hl]
    | some x => simp [hl] at h

theorem take_broken (nd : Node S T) (h : takeInput nd = .error .broken) :
    (Input.pending nd).length = 0 := by
  simp only [takeInput, tryTakeInput] at h
  cases hs : nd.storage with
  | none => simp [Input.pending, hs]
  | some q =>
    simp only [hs] at h
    cases hl : q.getLast? <;> simp [hl] at h

theorem app_other (w : World E S T U) (u : U × List (Act E S T)) (n : E) :
    (.purge n ∈ (acts { w with user := u.1 } u.2).2.1 →
      waitingAt (acts { w with user := u.1 } u.2).1 n = 0) ∧
    waitingAt (acts { w with user := u.1 } u.2).1 n ≤
      waitingAt w n + asked n (acts { w with user := u.1 } u.2).2.1 :=
  ⟨fun h => waitingAt_none _ _ (acts_purge _ _ _ h), acts_careful u.2 { w with user := u.1 } n⟩

/-- Every application keeps the contract. -/
theorem app_careful (A : App E S T U) : Careful A.prog waitingAt := by
  intro c w n
  by_cases hc : ∃ e, c = .entry .queue e
  · obtain ⟨e, rfl⟩ := hc
    simp only [App.prog]
    cases ht : takeInput (w.nodes e) with
    | error er =>
      cases er with
      | notReady =>
        have := take_notReady _ ht
        refine ⟨by simp, fun _ => ?_⟩
        by_cases hn : e = n
        · subst hn; simp [waitingAt, this]
        · simp [hn]
      | broken =>
        have := take_broken _ ht
        refine ⟨by simp, fun _ => ?_⟩
        by_cases hn : e = n
        · subst hn; simp [waitingAt, this]
        · simp [hn]
    | ok p =>
      obtain ⟨nd, i⟩ := p
      have htp := take_pending _ _ _ ht
      have h := app_other (setNode w e nd) (A.op e i (setNode w e nd).user) n
      simp only
      have hq : waitingAt (setNode w e nd) n ≤
          waitingAt w n - (if Call.entry Kind.queue e = Call.entry Kind.queue n then 1 else 0) := by
        rw [waitingAt_setNode]
        by_cases hn : n = e
        · subst hn; simp [waitingAt, htp]
        · have : e ≠ n := fun h => hn h.symm
          simp [hn, this]
      split
      · rename_i hb
        simp only [List.mem_append, List.mem_singleton, reduceCtorEq, or_false]
        refine ⟨h.1, fun _ => ?_⟩
        rw [asked_append]
        have := h.2
        omega
      · refine ⟨h.1, fun _ => ?_⟩
        have := h.2
        omega
  · have hcall : A.prog.call c w =
        ((acts { w with user := (A.other c w.user).1 } (A.other c w.user).2).1,
         (acts { w with user := (A.other c w.user).1 } (A.other c w.user).2).2.1) := by
      simp only [App.prog]
      split
      · rename_i e; exact absurd ⟨e, rfl⟩ hc
      · rfl
    rw [hcall]
    have h := app_other w (A.other c w.user) n
    refine ⟨h.1, fun _ => ?_⟩
    have hne : c ≠ .entry .queue n := fun h => hc ⟨n, h⟩
    simp only [hne, if_false]
    exact h.2

end Verif.Sched
