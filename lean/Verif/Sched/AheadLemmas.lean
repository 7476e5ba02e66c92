import Verif.Sched.Lemmas

/-
The channel is emptied before deferred requests are taken up: lemmas about the flush loop.
-/
namespace Verif.Flush

set_option linter.unusedSectionVars false
set_option linter.unusedSimpArgs false

variable {W E : Type} [DecidableEq E]

theorem applyEffs_undeferred (fs : List (Eff E)) (s : St W E) (e : E) :
    .undeferred e ∉ (applyEffs s fs).2 := by
  induction fs generalizing s with
  | nil => simp [applyEffs]
  | cons f fs ih =>
    simp only [applyEffs, List.mem_append, not_or]
    refine ⟨?_, ih _⟩
    cases f <;> simp [applyEff]

theorem perform_undeferred (P : Prog W E) (c : Call E) (s : St W E) (e : E) :
    .undeferred e ∉ (perform P c s).2 :=
  applyEffs_undeferred _ _ e

theorem runEntry_undeferred (P : Prog W E) (k : Kind) (x : E) (n : Phase) (s : St W E) (e : E) :
    .undeferred e ∉ (runEntry P k x n s).2 := by
  simp [runEntry, perform_undeferred]

theorem histOf_undeferred (f : Kind → E → Hist E) (r : Roster E)
    (hf : ∀ k e e', f k e ≠ .undeferred e') (e : E) : .undeferred e ∉ histOf f r := by
  simp only [histOf, List.mem_flatMap, List.mem_map]
  rintro ⟨k, _, x, _, h⟩
  exact hf k x e h

theorem prefix_append_cases {α : Type} {xs R c : List α} (h : xs <+: R ++ c) :
    xs <+: R ++ xs.drop R.length ∧ xs.drop R.length <+: c := by
  induction R generalizing xs with
  | nil => simpa using h
  | cons a R ih =>
    cases xs with
    | nil => simp
    | cons x xs =>
      simp only [List.cons_append, List.cons_prefix_cons] at h
      obtain ⟨rfl, h⟩ := h
      simpa using ih h

/-- Without a limit for the channel: the channel loop is only left when the channel is empty,
and only then deferred requests are taken up. -/
theorem tick_ahead (P : Prog W E) (hP : ∀ w, (P.params w).channelLimit = none) (s : St W E)
    (hw : WF s) (hs : s.params.channelLimit = none) :
    (tick P s).1.params.channelLimit = none ∧
    ((tick P s).1.phase = .services → s.phase = .recv ∧ s.chan = []) ∧
    ∀ e, .undeferred e ∈ (tick P s).2 → s.phase = .services := by
  obtain ⟨w, ros, lat, ch, wk, lc, rc, pa, ph⟩ := s
  simp only at hs
  cases ph <;> simp only [tick]
  case idle => simp [hP]
  case recv =>
    cases ch with
    | nil => simp [hs]
    | cons x rest =>
      have h := perform_frame P (.item x) (⟨w, ros, lat, rest, wk, lc, rc, pa, .recv⟩ : St W E)
      simp [hs, reached, h, perform_undeferred]
  case services =>
    have h := perform_frame P .services
      (⟨w, ros.processDeferals, lat, ch, wk, lc, rc, pa, .services⟩ : St W E)
    simp [hs, h]
  case merge =>
    refine ⟨hs, by simp, ?_⟩
    intro e he
    rcases List.mem_append.1 he with he | he
    · exact absurd he (histOf_undeferred _ _ (by simp) e)
    · simp at he
  case targets =>
    have h := perform_frame P .targets (⟨w, ros, lat, ch, wk, lc, rc, pa, .targets⟩ : St W E)
    simp [hs, h, perform_undeferred]
  case top => by_cases hr : ros.isEmpty = true <;> simp [hr, hs]
  case limit =>
    by_cases hr : reached (P.params w).loopLimit lc = true
    · simp only [hr, if_true]
      refine ⟨hP w, by simp, ?_⟩
      intro e he
      rcases List.mem_append.1 he with he | he
      · exact absurd he (histOf_undeferred _ _ (by simp) e)
      · simp at he
    · simp [hr, hP]
  case queueCheck => by_cases hr : reached pa.loopLimit (lc + 1) = true <;> simp [hr, hs]
  case cancels ret =>
    have hret := hw.2
    cases hd : ros.cancel with
    | nil =>
      simp only at hret
      rcases hret with rfl | rfl | rfl <;> simp [hs]
    | cons x rest => simp [runEntry, perform_frame, perform_undeferred, hs]
  case dispose =>
    cases hd : ros.disposed.getLast? <;> simp [runEntry, perform_frame, perform_undeferred, hs]
  case despawn =>
    cases hd : ros.despawn <;> simp [runEntry, perform_frame, perform_undeferred, hs]
  case cleanups ret =>
    cases hd : ros.cleanup.getLast? <;> simp [runEntry, perform_frame, perform_undeferred, hs]
  case unblock =>
    cases hd : ros.unblock <;> simp [runEntry, perform_frame, perform_undeferred, hs]
  case queue =>
    cases hd : ros.queue <;> simp [runEntry, perform_frame, perform_undeferred, hs]
  case awake =>
    cases hd : ros.awake <;> simp [runEntry, perform_frame, perform_undeferred, hs]

theorem step_ahead (P : Prog W E) (hP : ∀ w, (P.params w).channelLimit = none) (s : St W E)
    (hw : WF s) (hs : s.params.channelLimit = none) (v : Ev W E) :
    (step P s v).1.params.channelLimit = none ∧
    ((step P s v).1.phase = .services → s.phase = .services ∨ s.phase = .recv ∧ s.chan = []) ∧
    ∀ e, .undeferred e ∈ (step P s v).2 → s.phase = .services := by
  cases v with
  | tick =>
    obtain ⟨h1, h2, h3⟩ := tick_ahead P hP s hw hs
    exact ⟨h1, fun h => .inr (h2 h), h3⟩
  | env f l c w =>
    obtain ⟨-, h2, -, -, -, -, h7, -⟩ := step_env_frame l
      { s with world := f s.world, chan := s.chan ++ c, wake := s.wake ++ w }
    refine ⟨by simp only [step]; rw [h7]; exact hs, fun h => .inl ?_, fun e he => ?_⟩
    · simp only [step] at h
      rw [h2] at h
      exact h
    · exact absurd he (applyEffs_undeferred _ _ e)

/-- `xs` is at the front of the channel and the flush is in one of the phases `C`, which it only
leaves with an empty channel. Then whatever is only done outside of `C` is done after `xs` was
received. -/
theorem run_ahead_of (P : Prog W E) (hP : ∀ w, (P.params w).channelLimit = none)
    (C : Phase → Prop) (M : Hist E → Prop)
    (hC : ∀ (s : St W E) v, WF s → s.params.channelLimit = none → C s.phase → s.chan ≠ [] →
      C (step P s v).1.phase)
    (hM : ∀ (s : St W E) v x, WF s → s.params.channelLimit = none → C s.phase →
      x ∈ (step P s v).2 → ¬ M x)
    (vs : List (Ev W E)) : ∀ (s : St W E) (xs : List E), WF s → s.params.channelLimit = none →
      xs <+: s.chan → (xs ≠ [] → C s.phase) →
      ∀ (x : Hist E), M x → ∀ (h1 h2 : List (Hist E)), (run P s vs).2 = h1 ++ x :: h2 →
        xs <+: receivedOf h1 := by
  induction vs with
  | nil => intro s xs _ _ _ _ x _ h1 h2 h; simp [run] at h
  | cons v vs ih =>
    intro s xs hw hs hx hph x hMx h1 h2 h
    by_cases hne : xs = []
    · subst hne; exact List.nil_prefix
    have hCs := hph hne
    have hch : s.chan ≠ [] := by
      intro h0; rw [h0] at hx; exact hne (List.prefix_nil.1 hx)
    have g1 := (step_ahead P hP s hw hs v).1
    have g2 := hC s v hw hs hCs hch
    obtain ⟨sent, hsent⟩ := step_chan P s v
    have hx' : xs <+: receivedOf (step P s v).2 ++ (step P s v).1.chan := by
      rw [hsent]; exact hx.trans (List.prefix_append _ _)
    obtain ⟨d1, d2⟩ := prefix_append_cases hx'
    have hnext := ih (step P s v).1 _ (step_WF P s v hw) g1 d2 (fun _ => g2) x hMx
    simp only [run] at h
    rcases List.append_eq_append_iff.1 h with ⟨t, ht1, ht2⟩ | ⟨t, ht1, ht2⟩
    · rw [ht1, receivedOf_append]
      exact d1.trans ((List.prefix_append_right_inj _).2 (hnext t h2 ht2))
    · cases t with
      | nil =>
        simp only [List.append_nil] at ht1
        have hn := List.prefix_nil.1 (hnext [] h2 ht2.symm)
        rw [hn, List.append_nil, ht1] at d1
        exact d1
      | cons a t =>
        simp only [List.cons_append, List.cons.injEq] at ht2
        exact absurd hMx (hM s v x hw hs hCs (by rw [ht1, ht2.1]; simp))

theorem run_ahead (P : Prog W E) (hP : ∀ w, (P.params w).channelLimit = none)
    (vs : List (Ev W E)) (s : St W E) (hw : WF s) (hs : s.params.channelLimit = none)
    (hph : s.phase ≠ .services) (e : E) (h1 h2 : List (Hist E))
    (h : (run P s vs).2 = h1 ++ .undeferred e :: h2) : s.chan <+: receivedOf h1 := by
  refine run_ahead_of P hP (· ≠ .services) (fun x => ∃ e, x = .undeferred e) ?_ ?_ vs s s.chan hw hs
    (List.prefix_refl _) (fun _ => hph) _ ⟨e, rfl⟩ h1 h2 h
  · intro s v hw hs hc hne hserv
    rcases (step_ahead P hP s hw hs v).2.1 hserv with h | h
    · exact hc h
    · exact hne h.2
  · rintro s v x hw hs hc hx ⟨e, rfl⟩
    exact hc ((step_ahead P hP s hw hs v).2.2 e hx)

/-! ### Executions -/

theorem applyEffs_notRan (fs : List (Eff E)) (s : St W E) (k : Kind) (e : E) :
    .ran k e ∉ (applyEffs s fs).2 := by
  induction fs generalizing s with
  | nil => simp [applyEffs]
  | cons f fs ih =>
    simp only [applyEffs, List.mem_append, not_or]
    refine ⟨?_, ih _⟩
    cases f <;> simp [applyEff]

theorem perform_notRan (P : Prog W E) (c : Call E) (s : St W E) (k : Kind) (e : E) :
    .ran k e ∉ (perform P c s).2 :=
  applyEffs_notRan _ _ k e

/-- The flush polls woken tasks or receives from the channel. -/
def Polling : Phase → Prop
  | .awake | .cleanups .awake | .cancels .awake | .recv => True
  | _ => False

theorem step_polling (P : Prog W E) (s : St W E) (v : Ev W E) (hs : s.params.channelLimit = none)
    (hp : Polling s.phase) :
    (s.chan ≠ [] → Polling (step P s v).1.phase) ∧ ∀ e, .ran .queue e ∉ (step P s v).2 := by
  cases v with
  | env f l c w =>
    obtain ⟨-, h2, -⟩ := step_env_frame l
      { s with world := f s.world, chan := s.chan ++ c, wake := s.wake ++ w }
    refine ⟨fun _ => ?_, fun e => applyEffs_notRan _ _ _ e⟩
    simp only [step]
    rw [h2]
    exact hp
  | tick =>
    obtain ⟨w, ros, lat, ch, wk, lc, rc, pa, ph⟩ := s
    simp only at hs
    simp only [step]
    cases ph with
    | recv =>
      cases ch with
      | nil => simp [tick]
      | cons x rest =>
        have h := perform_frame P (.item x) (⟨w, ros, lat, rest, wk, lc, rc, pa, .recv⟩ : St W E)
        simp [tick, hs, reached, h, perform_notRan, Polling]
    | awake =>
      cases hd : ros.awake <;> simp [tick, hd, runEntry, perform_notRan, Polling]
    | cleanups ret =>
      cases ret <;> simp only [Polling] at hp
      cases hd : ros.cleanup.getLast? <;> simp [tick, hd, runEntry, perform_notRan, Polling]
    | cancels ret =>
      cases ret <;> simp only [Polling] at hp
      cases hd : ros.cancel <;> simp [tick, hd, runEntry, perform_notRan, Polling]
    | _ => simp [Polling] at hp

theorem run_polling (P : Prog W E) (hP : ∀ w, (P.params w).channelLimit = none)
    (vs : List (Ev W E)) (s : St W E) (hw : WF s) (hs : s.params.channelLimit = none)
    (hp : Polling s.phase) (e : E) (h1 h2 : List (Hist E))
    (h : (run P s vs).2 = h1 ++ .ran .queue e :: h2) : s.chan <+: receivedOf h1 := by
  refine run_ahead_of P hP Polling (fun x => ∃ e, x = .ran .queue e) ?_ ?_ vs s s.chan hw hs
    (List.prefix_refl _) (fun _ => hp) _ ⟨e, rfl⟩ h1 h2 h
  · intro s v _ hs hc hne
    exact (step_polling P s v hs hc).1 hne
  · rintro s v x _ hs hc hx ⟨e, rfl⟩
    exact (step_polling P s v hs hc).2 e hx

/-! ### Requests that are not deferred -/

/-- Requests to execute `m` that are not deferred, in the running flush and in the store. -/
def direct (m : E) (s : St W E) : Nat := s.roster.queue.count m + s.later.queue.count m

def undefCount (m : E) (h : List (Hist E)) : Nat := h.countP (· = .undeferred m)

theorem undefCount_append (m : E) (a b : List (Hist E)) :
    undefCount m (a ++ b) = undefCount m a + undefCount m b := by simp [undefCount]

theorem count_push_le (m : E) (k : Kind) (e : E) (r : Roster E) :
    (r.push k e).queue.count m ≤ r.queue.count m +
      if (decide (slot k = .queue) && decide (e = m)) = true then 1 else 0 := by
  cases k <;> simp [Roster.push, slot, List.count_append, List.count_singleton]

theorem applyEffs_direct (m : E) (fs : List (Eff E)) (s : St W E) :
    direct m (applyEffs s fs).1 ≤ direct m s + newCount .queue m (applyEffs s fs).2 ∧
    ranCount .queue m (applyEffs s fs).2 = 0 := by
  induction fs generalizing s with
  | nil => simp [applyEffs]
  | cons f fs ih =>
    obtain ⟨h1, h2⟩ := ih (applyEff s f).1
    simp only [applyEffs, newCount_append, ranCount_append, h2]
    have h3 : direct m (applyEff s f).1 ≤ direct m s + newCount .queue m (applyEff s f).2 ∧
        ranCount .queue m (applyEff s f).2 = 0 := by
      cases f with
      | put k e =>
        have := count_push_le m k e s.roster
        simp only [applyEff, direct, newCount, ranCount, List.countP_cons, List.countP_nil]
        simp at this ⊢
        omega
      | later k e =>
        have := count_push_le m k e s.later
        simp only [applyEff, direct, newCount, ranCount, List.countP_cons, List.countP_nil]
        simp at this ⊢
        omega
      | purge e =>
        have : (s.roster.queue.filter fun x => decide (x ≠ e)).count m ≤ s.roster.queue.count m :=
          (List.filter_sublist).count_le _
        simp only [applyEff, direct, Roster.purge, newCount, ranCount, List.countP_cons,
          List.countP_nil]
        simp at this ⊢
        omega
      | chan e => simp [applyEff, direct]
      | wake e => simp [applyEff, direct]
    omega

theorem perform_direct (P : Prog W E) (c : Call E) (m : E) (s : St W E) :
    direct m (perform P c s).1 ≤ direct m s + newCount .queue m (perform P c s).2 ∧
    ranCount .queue m (perform P c s).2 = 0 :=
  applyEffs_direct m (P.call c s.world).2 { s with world := (P.call c s.world).1 }

theorem runEntry_direct (P : Prog W E) (k : Kind) (hk : k ≠ .deferred) (x : E) (n : Phase)
    (m : E) (s : St W E) :
    direct m (runEntry P k x n s).1 + ranCount .queue m (runEntry P k x n s).2 ≤
      direct m s + newCount .queue m (runEntry P k x n s).2 +
        if k = .queue ∧ x = m then 1 else 0 := by
  obtain ⟨h1, h2⟩ := perform_direct P (.entry k x) m s
  have hr : ranCount .queue m (runEntry P k x n s).2 = if k = .queue ∧ x = m then 1 else 0 := by
    have : ranCount .queue m (Hist.ran k x :: (perform P (.entry k x) s).2) =
        (if k = .queue ∧ x = m then 1 else 0) + ranCount .queue m (perform P (.entry k x) s).2 := by
      simp only [ranCount, List.countP_cons]
      cases k <;> simp [slot] <;> first | omega | exact absurd rfl hk
    simp only [runEntry]
    rw [this, h2]
    rfl
  have hn : newCount .queue m (runEntry P k x n s).2 =
      newCount .queue m (perform P (.entry k x) s).2 := by
    simp [runEntry, newCount, List.countP_cons]
  rw [hr, hn]
  have : direct m (runEntry P k x n s).1 = direct m (perform P (.entry k x) s).1 := rfl
  rw [this]
  omega

theorem undefCount_map (m : E) (l : List E) : undefCount m (l.map .undeferred) = l.count m := by
  simp only [undefCount, List.countP_map, List.count]
  congr 1
  funext x
  simp [Function.comp, BEq.beq]

theorem tick_direct (P : Prog W E) (m : E) (s : St W E) :
    direct m (tick P s).1 + ranCount .queue m (tick P s).2 ≤
      direct m s + newCount .queue m (tick P s).2 + undefCount m (tick P s).2 := by
  obtain ⟨w, ros, lat, ch, wk, lc, rc, pa, ph⟩ := s
  cases ph <;> simp only [tick]
  case idle => simp [direct]; omega
  case recv =>
    cases ch with
    | nil => simp [direct]
    | cons x rest =>
      obtain ⟨h1, h2⟩ := perform_direct P (.item x) m
        (⟨w, ros, lat, rest, wk, lc, rc, pa, .recv⟩ : St W E)
      have hr : ranCount .queue m (Hist.received x ::
          (perform P (.item x) ⟨w, ros, lat, rest, wk, lc, rc, pa, .recv⟩).2) = 0 := by
        simp only [ranCount, List.countP_cons] at h2 ⊢
        simp [h2]
      have hn : newCount .queue m (Hist.received x ::
          (perform P (.item x) ⟨w, ros, lat, rest, wk, lc, rc, pa, .recv⟩).2) =
          newCount .queue m (perform P (.item x) ⟨w, ros, lat, rest, wk, lc, rc, pa, .recv⟩).2 := by
        simp [newCount, List.countP_cons]
      dsimp only
      split
      all_goals
        rw [hr, hn]
        exact Nat.le_trans h1 (Nat.le_add_right _ _)
  case services =>
    obtain ⟨h1, h2⟩ := perform_direct P .services m
      (⟨w, ros.processDeferals, lat, ch, wk, lc, rc, pa, .services⟩ : St W E)
    have h3 : direct m (⟨w, ros.processDeferals, lat, ch, wk, lc, rc, pa, .services⟩ : St W E) =
        direct m (⟨w, ros, lat, ch, wk, lc, rc, pa, .services⟩ : St W E) + ros.deferred.count m := by
      simp [direct, Roster.processDeferals, List.count_append]; omega
    simp only [newCount_append, ranCount_append, undefCount_append, undefCount_map, h2,
      newCount_undeferred, ranCount_undeferred]
    have : direct m { (perform P .services ⟨w, ros.processDeferals, lat, ch, wk, lc, rc, pa,
        .services⟩).1 with phase := .merge } = direct m (perform P .services
          ⟨w, ros.processDeferals, lat, ch, wk, lc, rc, pa, .services⟩).1 := rfl
    rw [this]
    omega
  case merge =>
    simp only [newCount_append, ranCount_append, undefCount_append]
    rw [ranCount_histOf _ _ _ _ (by simp), ranCount_wake]
    simp [direct, Roster.append, List.count_append]
    omega
  case targets =>
    obtain ⟨h1, h2⟩ := perform_direct P .targets m
      (⟨w, ros, lat, ch, wk, lc, rc, pa, .targets⟩ : St W E)
    have : direct m { (perform P .targets ⟨w, ros, lat, ch, wk, lc, rc, pa, .targets⟩).1 with
        phase := .dispose } = direct m (perform P .targets
          ⟨w, ros, lat, ch, wk, lc, rc, pa, .targets⟩).1 := rfl
    rw [this]
    omega
  case top => split <;> simp [direct, ranCount, newCount, undefCount]
  case limit =>
    by_cases hr : reached (P.params w).loopLimit lc = true
    · simp only [hr, if_true, ranCount_append]
      rw [ranCount_histOf _ _ _ _ (by simp)]
      simp [direct, Roster.append, List.count_append, ranCount]
      omega
    · simp [hr, direct]
  case queueCheck => split <;> simp [direct]
  case dispose =>
    cases hd : ros.disposed.getLast? with
    | none => simp [direct]
    | some x =>
      have := runEntry_direct P .disposed (by simp) x .dispose m
        { (⟨w, ros, lat, ch, wk, lc, rc, pa, .dispose⟩ : St W E) with
          roster := { ros with disposed := ros.disposed.dropLast } }
      simp only [reduceCtorEq, false_and, if_false] at this
      exact Nat.le_trans this (Nat.le_add_right _ _)
  case despawn =>
    cases hd : ros.despawn with
    | nil => simp [direct]
    | cons x rest =>
      have := runEntry_direct P .despawn (by simp) x .despawn m
        { (⟨w, ros, lat, ch, wk, lc, rc, pa, .despawn⟩ : St W E) with
          roster := { ros with despawn := rest } }
      simp only [reduceCtorEq, false_and, if_false] at this
      exact Nat.le_trans this (Nat.le_add_right _ _)
  case cleanups ret =>
    cases hd : ros.cleanup.getLast? with
    | none => simp [direct]
    | some x =>
      have := runEntry_direct P .cleanup (by simp) x (.cleanups ret) m
        { (⟨w, ros, lat, ch, wk, lc, rc, pa, .cleanups ret⟩ : St W E) with
          roster := { ros with cleanup := ros.cleanup.dropLast } }
      simp only [reduceCtorEq, false_and, if_false] at this
      exact Nat.le_trans this (Nat.le_add_right _ _)
  case cancels ret =>
    cases hd : ros.cancel with
    | nil => simp [direct]
    | cons x rest =>
      have := runEntry_direct P .cancel (by simp) x (.cancels ret) m
        { (⟨w, ros, lat, ch, wk, lc, rc, pa, .cancels ret⟩ : St W E) with
          roster := { ros with cancel := rest } }
      simp only [reduceCtorEq, false_and, if_false] at this
      exact Nat.le_trans this (Nat.le_add_right _ _)
  case unblock =>
    cases hd : ros.unblock with
    | nil => simp [direct]
    | cons x rest =>
      have := runEntry_direct P .unblock (by simp) x (.cleanups .unblock) m
        { (⟨w, ros, lat, ch, wk, lc, rc, pa, .unblock⟩ : St W E) with
          roster := { ros with unblock := rest } }
      simp only [reduceCtorEq, false_and, if_false] at this
      exact Nat.le_trans this (Nat.le_add_right _ _)
  case awake =>
    cases hd : ros.awake with
    | nil => simp [direct]
    | cons x rest =>
      have := runEntry_direct P .awake (by simp) x (.cleanups .awake) m
        { (⟨w, ros, lat, ch, wk, lc, rc, pa, .awake⟩ : St W E) with
          roster := { ros with awake := rest } }
      simp only [reduceCtorEq, false_and, if_false] at this
      exact Nat.le_trans this (Nat.le_add_right _ _)
  case queue =>
    cases hd : ros.queue with
    | nil => simp [direct]
    | cons x rest =>
      have := runEntry_direct P .queue (by simp) x (.cleanups .queueCheck) m
        { (⟨w, ros, lat, ch, wk, lc, rc, pa, .queue⟩ : St W E) with
          roster := { ros with queue := rest } }
      refine Nat.le_trans this ?_
      have hc : direct m (⟨w, ros, lat, ch, wk, lc, rc, pa, .queue⟩ : St W E) =
          direct m { (⟨w, ros, lat, ch, wk, lc, rc, pa, .queue⟩ : St W E) with
            roster := { ros with queue := rest } } + if x = m then 1 else 0 := by
        simp only [direct, hd, List.count_cons, beq_iff_eq]
        omega
      rw [hc]
      simp only [true_and]
      omega

theorem step_direct (P : Prog W E) (m : E) (s : St W E) (v : Ev W E) :
    direct m (step P s v).1 + ranCount .queue m (step P s v).2 ≤
      direct m s + newCount .queue m (step P s v).2 + undefCount m (step P s v).2 := by
  cases v with
  | tick => exact tick_direct P m s
  | env f l c w =>
    obtain ⟨h1, h2⟩ := applyEffs_direct m (l.map fun p => Eff.later p.1 p.2)
      { s with world := f s.world, chan := s.chan ++ c, wake := s.wake ++ w }
    simp only [step, h2]
    exact Nat.le_trans h1 (Nat.le_add_right _ _)

theorem run_direct (P : Prog W E) (m : E) (vs : List (Ev W E)) (s : St W E) :
    direct m (run P s vs).1 + ranCount .queue m (run P s vs).2 ≤
      direct m s + newCount .queue m (run P s vs).2 + undefCount m (run P s vs).2 := by
  induction vs generalizing s with
  | nil => simp [run]
  | cons v vs ih =>
    have h1 := step_direct P m s v
    have h2 := ih (step P s v).1
    simp only [run, newCount_append, ranCount_append, undefCount_append]
    omega

end Verif.Flush

namespace Verif.Sched

open Verif.Input Verif.Flush

set_option linter.unusedSectionVars false

variable {E S T U : Type} [DecidableEq E] [DecidableEq S]

/-- Counting: the response was just deferred. -/
theorem response_last (A : App E S T U)
    (hA : ∀ w, (A.params w).channelLimit = none) (s : St (World E S T U) E) (hw : WF s)
    (hs : s.params.channelLimit = none) (hph : s.phase ≠ .services) (m : E)
    (pre : List (Inp S T)) (resp : Inp S T)
    (hresp : Input.pending (s.world.nodes m) = pre ++ [resp])
    (hq : s.roster.queue.count m + s.later.queue.count m ≤ pre.length)
    (vs : List (Flush.Ev (World E S T U) E))
    (hnew : newCount .queue m (Flush.run A.prog s vs).2 = 0)
    (htaken : (Input.pending (s.world.nodes m)).length ≤
      (Input.pending ((Flush.run A.prog s vs).1.world.nodes m)).length +
        ranCount .queue m (Flush.run A.prog s vs).2)
    (hnow : (Flush.run A.prog s vs).1.roster.queue.head? = some m)
    (htake : Input.pending ((Flush.run A.prog s vs).1.world.nodes m) = [resp]) :
    s.chan <+: receivedOf (Flush.run A.prog s vs).2 := by
  have hd := run_direct A.prog m vs s
  rw [hresp, htake] at htaken
  simp only [List.length_append, List.length_cons, List.length_nil] at htaken
  have h1 : 1 ≤ direct m (Flush.run A.prog s vs).1 := by
    have : 1 ≤ (Flush.run A.prog s vs).1.roster.queue.count m := by
      cases hq : (Flush.run A.prog s vs).1.roster.queue with
      | nil => rw [hq] at hnow; simp at hnow
      | cons a l =>
        rw [hq] at hnow
        simp only [List.head?_cons, Option.some.injEq] at hnow
        rw [hnow]
        simp
    simp only [direct]; omega
  have h0 : direct m s ≤ pre.length := hq
  have hu : 0 < undefCount m (Flush.run A.prog s vs).2 := by omega
  simp only [undefCount, List.countP_pos_iff, decide_eq_true_eq] at hu
  obtain ⟨x, hx, rfl⟩ := hu
  obtain ⟨a, b, hab⟩ := List.append_of_mem hx
  have := run_ahead A.prog hA vs s hw hs hph m a b hab
  rw [hab]
  rw [receivedOf_append]
  exact this.trans (List.prefix_append _ _)

theorem acts_others (w : World E S T U) (more : List (Kind × E)) :
    acts w (more.map fun p => .other p.1 p.2) = (w, more.map fun p => Eff.put p.1 p.2, false) := by
  induction more with
  | nil => rfl
  | cons p more ih => simp only [List.map_cons, acts, act, ih]; rfl

theorem applyEffs_puts (more : List (Kind × E)) (hmore : ∀ p ∈ more, p.1 ≠ .queue)
    {W : Type} (s : St W E) :
    let r := applyEffs s (more.map fun p => Eff.put p.1 p.2)
    r.1.roster.queue = s.roster.queue ∧ r.1.later = s.later ∧ r.1.chan = s.chan ∧
    r.1.world = s.world ∧ r.1.phase = s.phase ∧ receivedOf r.2 = [] ∧
    ∀ m, ranCount .queue m r.2 = 0 := by
  induction more generalizing s with
  | nil => simp [applyEffs, receivedOf]
  | cons p more ih =>
    obtain ⟨a, b, c, d, e, f, g⟩ := ih (fun q hq => hmore q (by simp [hq]))
      (applyEff s (.put p.1 p.2)).1
    have hp := hmore p (by simp)
    have hq : (s.roster.push p.1 p.2).queue = s.roster.queue := by
      cases hk : p.1 <;> simp [Roster.push, hk] at hp ⊢
    simp only [List.map_cons, applyEffs]
    refine ⟨a.trans hq, b, c, d, e, ?_, ?_⟩
    · rw [receivedOf_append, f]; simp [applyEff, receivedOf]
    · intro m
      rw [ranCount_append, g]; simp [applyEff, ranCount]

/-- A task that is ready when it is executed from the queue. -/
theorem tick_ready (A : App E S T U) (s : St (World E S T U) E) (hph : s.phase = .queue)
    (t m : E) (htm : t ≠ m) (rest : List E) (ht : s.roster.queue = t :: rest) (n : Node S T)
    (i : Inp S T) (hin : takeInput (s.world.nodes t) = .ok (n, i)) (u : U) (se : S) (d : T)
    (more : List (Kind × E)) (hmore : ∀ p ∈ more, p.1 ≠ .queue ∧ p.1 ≠ .deferred)
    (hop : A.op t i s.world.user = (u, .defer m se d :: more.map fun p => .other p.1 p.2))
    (hact : s.world.active se = true)
    (pre : List (Inp S T)) (hst : (s.world.nodes m).storage = some pre.reverse) :
    let r := tick A.prog s
    r.1.phase = .cleanups .queueCheck ∧
    Input.pending (r.1.world.nodes m) = pre ++ [⟨se, d⟩] ∧
    r.1.chan = s.chan ∧
    r.1.roster.queue.count m + r.1.later.queue.count m =
      s.roster.queue.count m + s.later.queue.count m ∧
    1 ≤ newCount .queue m r.2 ∧
    ranCount .queue m r.2 = 0 ∧ receivedOf r.2 = [] := by
  have hnode : ((setNode s.world t n).nodes m) = s.world.nodes m := by
    simp [setNode, Ne.symm htm]
  have hcall : A.prog.call (.entry .queue t) s.world =
      (setNode { setNode s.world t n with user := u } m
          { s.world.nodes m with storage := some (⟨se, d⟩ :: pre.reverse) },
        (.put .deferred m : Eff E) :: more.map fun p => Eff.put p.1 p.2) := by
    simp only [App.prog, hin]
    have hu : (setNode s.world t n).user = s.world.user := rfl
    rw [hu, hop]
    have hsn : act { setNode s.world t n with user := u } (.defer m se d) =
        (setNode { setNode s.world t n with user := u } m
          { s.world.nodes m with storage := some (⟨se, d⟩ :: pre.reverse) },
          [(.put .deferred m : Eff E)], false) := by
      have ha : (setNode s.world t n).active se = true := hact
      simp only [act, sneakInput, hnode, ha, hst, Bool.not_true, Bool.and_false,
        Bool.false_eq_true, if_false]
    simp only [acts, hsn, acts_others]
    rfl
  intro r
  have hr : r = runEntry A.prog .queue t (.cleanups .queueCheck)
      { s with roster := { s.roster with queue := rest } } := by
    simp only [r, tick, hph, ht]
  have hperf : perform A.prog (.entry .queue t) { s with roster := { s.roster with queue := rest } } =
      applyEffs { s with
          roster := { s.roster with queue := rest },
          world := setNode { setNode s.world t n with user := u } m
            { s.world.nodes m with storage := some (⟨se, d⟩ :: pre.reverse) } }
        ((.put .deferred m : Eff E) :: more.map fun p => Eff.put p.1 p.2) := by
    simp only [perform, hcall]
  have hmore' : ∀ p ∈ (Kind.deferred, m) :: more, p.1 ≠ Kind.queue := by
    intro p hp
    rcases List.mem_cons.1 hp with rfl | hp
    · simp
    · exact (hmore p hp).1
  have hp := applyEffs_puts ((Kind.deferred, m) :: more) hmore'
    ({ s with
          roster := { s.roster with queue := rest },
          world := setNode { setNode s.world t n with user := u } m
            { s.world.nodes m with storage := some (⟨se, d⟩ :: pre.reverse) } })
  simp only [List.map_cons] at hp
  rw [← hperf] at hp
  obtain ⟨a, b, c, dd, e, f, g⟩ := hp
  rw [hr]
  refine ⟨rfl, ?_, c, ?_, ?_, ?_, ?_⟩
  · simp only [runEntry, dd]
    simp [setNode, Input.pending]
  · simp only [runEntry, a, b, ht, List.count_cons, beq_iff_eq, htm, if_false, Nat.add_zero]
  · simp only [runEntry, hperf, applyEffs, applyEff]
    simp [newCount, slot]
  · have := g m
    simp only [runEntry, ranCount, List.countP_cons] at this ⊢
    simp [this, htm]
  · simp only [runEntry, receivedOf] at f ⊢
    simpa using f

end Verif.Sched
