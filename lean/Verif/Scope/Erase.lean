import Verif.Scope.Calm

/-
An uninterruptible scope with and without the cleanup requests of its parent.
-/
set_option linter.unusedSimpArgs false
set_option linter.unusedVariables false
namespace Verif.Scope

variable {α κ : Type}

/-- Forget that a cleanup was asked for. -/
def Status.erase : Status → Status
  | .deferredCleanup => .ongoing
  | .cleanup => .terminated
  | s => s

def Scoped.erase (x : Scoped) : Scoped := { x with status := x.status.erase }

def Out.isNotify : Out α κ → Bool
  | .notify _ => true
  | _ => false

def State.erase (st : State α κ) : State α κ :=
  { st with
    sessions := st.sessions.map Scoped.erase
    out := st.out.filter (fun o => !o.isNotify) }

theorem erase_emit (st : State α κ) (o : Out α κ) (h : o.isNotify = false) :
    (st.emit o).erase = st.erase.emit o := by
  simp [State.erase, State.emit, List.filter_append, h]

theorem erase_register (st : State α κ) (c : Cleanup) :
    (st.register c).erase = st.erase.register c := by
  unfold State.register
  have : st.erase.contents = st.contents := rfl
  rw [this]
  split
  · rfl
  · dsimp only
    split <;> rfl

theorem erase_clean (st : State α κ) (c : Cleanup) (now : Bool) :
    (st.clean c now).erase = st.erase.clean c now := by
  unfold State.clean
  cases now
  · rfl
  · exact erase_register _ _

theorem erase_cleanNodes (self s id : Ent) (now : List (Ent × Ent)) (ns : List Ent) :
    ∀ st : State α κ, (cleanNodes self s id now ns st).erase = cleanNodes self s id now ns st.erase := by
  induction ns with
  | nil => intro st; rfl
  | cons n ns ih => intro st; simp only [cleanNodes]; rw [ih, erase_clean]

theorem erase_cleanOne (cfg : Cfg) (c : Cleanup) (f : Finish κ) (now : List (Ent × Ent)) (s : Ent)
    (st : State α κ) :
    (cleanOne cfg c f now s st).map State.erase = cleanOne cfg c f now s st.erase := by
  unfold cleanOne
  have : st.erase.alive = st.alive := rfl
  rw [this]
  split
  · rfl
  · dsimp only
    split
    · rfl
    · simp only [Option.map_some]
      rw [erase_cleanNodes]; rfl

theorem erase_cleanupEntire (cfg : Cfg) (c : Cleanup) (f : Finish κ) (now : List (Ent × Ent)) :
    ∀ (l : List Ent) (st : State α κ),
      (cleanupEntire cfg c f now l st).erase = cleanupEntire cfg c f now l st.erase := by
  intro l
  induction l with
  | nil => intro st; rfl
  | cons s ss ih =>
    intro st
    simp only [cleanupEntire]
    rw [← erase_cleanOne]
    cases cleanOne cfg c f now s st with
    | none => exact erase_emit _ _ rfl
    | some st' => exact ih st'

theorem erase_transition (p : Scoped → Bool) (f : Status → Status × Bool)
    (hp : ∀ x : Scoped, p x.erase = p x)
    (hf : ∀ s : Status, f s.erase = ((f s).1.erase, (f s).2)) (l : List Scoped) :
    transition p f (l.map Scoped.erase) =
      ((transition p f l).1.map Scoped.erase, (transition p f l).2) := by
  unfold transition
  refine Prod.ext ?_ ?_
  · simp only [List.map_map]
    apply List.map_congr_left
    intro x _
    simp only [Function.comp, hp]
    split
    · show Scoped.mk x.parent x.sid (f x.status.erase).1 = Scoped.mk x.parent x.sid (f x.status).1.erase
      rw [hf]
    · rfl
  · dsimp only
    rw [List.filter_map, List.map_map]
    have : ((fun x : Scoped => p x && (f x.status).2) ∘ Scoped.erase) =
        fun x => p x && (f x.status).2 := by
      funext x
      show (p x.erase && (f x.status.erase).2) = _
      rw [hp, hf]
    rw [this]
    rfl

theorem cancelled_erase (s : Status) : s.erase.toCancelled = (s.toCancelled.1.erase, s.toCancelled.2) := by
  cases s <;> rfl

theorem finished_erase (s : Status) : s.erase.toFinished = (s.toFinished.1.erase, s.toFinished.2) := by
  cases s <;> rfl

theorem erase_cancelOne (cfg : Cfg) (s : Ent) (k : κ) (now : List (Ent × Ent)) (st : State α κ) :
    (cancelOne cfg s k now st).erase = cancelOne cfg s k now st.erase := by
  unfold cancelOne
  dsimp only
  rw [erase_cleanupEntire]
  have := erase_transition (fun p => p.sid == s || p.parent == s) Status.toCancelled (fun _ => rfl)
    cancelled_erase st.sessions
  show _ = cleanupEntire cfg _ _ now (transition _ _ (st.sessions.map Scoped.erase)).2
    { st.erase with sessions := (transition _ _ (st.sessions.map Scoped.erase)).1 }
  rw [this]
  rfl

theorem erase_cancelAll (cfg : Cfg) (k : κ) (now : List (Ent × Ent)) : ∀ (l : List Ent)
    (st : State α κ), (cancelAll cfg k now l st).erase = cancelAll cfg k now l st.erase := by
  intro l
  induction l with
  | nil => intro st; rfl
  | cons s ss ih => intro st; simp only [cancelAll]; rw [ih, erase_cancelOne]

theorem erase_transitionOne (s : Ent) (f : Status → Status × Bool)
    (hf : ∀ s : Status, f s.erase = ((f s).1.erase, (f s).2)) : ∀ l : List Scoped,
    transitionOne s f (l.map Scoped.erase) =
      (transitionOne s f l).map (fun r => (r.1.map Scoped.erase, r.2)) := by
  intro l
  induction l with
  | nil => rfl
  | cons x xs ih =>
    simp only [List.map_cons, transitionOne]
    have : x.erase.sid = x.sid := rfl
    rw [this]
    split
    · simp only [Option.map_some, List.map_cons]
      congr 1
      show (Scoped.mk x.parent x.sid (f x.status.erase).1 :: _, (f x.status.erase).2) =
        (Scoped.mk x.parent x.sid (f x.status).1.erase :: _, _)
      rw [hf]
    · rw [ih]
      cases transitionOne s f xs with
      | none => rfl
      | some r => rfl

theorem erase_validate (cfg : Cfg) (s : Ent) (u : Option κ) (now : List (Ent × Ent))
    (st : State α κ) : (validate cfg s u now st).erase = validate cfg s u now st.erase := by
  unfold validate
  split
  · rfl
  · show _ = match transitionOne s Status.toCancelled (st.sessions.map Scoped.erase) with
      | none => _ | some (sessions, changed) => _
    rw [erase_transitionOne _ _ cancelled_erase]
    cases transitionOne s Status.toCancelled st.sessions with
    | none => rfl
    | some r =>
      obtain ⟨l, b⟩ := r
      dsimp only [Option.map_some]
      cases b
      · rfl
      · simp only [if_true]
        rw [erase_cleanupEntire]; rfl

theorem erase_terminate (cfg : Cfg) (s : Ent) (v : α) (now : List (Ent × Ent))
    (st : State α κ) : (terminate cfg s v now st).erase = terminate cfg s v now st.erase := by
  unfold terminate
  dsimp only
  have : st.erase.staging = st.staging := rfl
  rw [this]
  split
  · rfl
  · show _ = match transitionOne s Status.toFinished (st.sessions.map Scoped.erase) with
      | none => _ | some (sessions, changed) => _
    rw [erase_transitionOne _ _ finished_erase]
    cases transitionOne s Status.toFinished st.sessions with
    | none => exact erase_emit _ _ rfl
    | some r =>
      obtain ⟨l, b⟩ := r
      dsimp only [Option.map_some]
      cases b
      · rfl
      · simp only [if_true]
        rw [erase_cleanupEntire]; rfl

theorem erase_begin (cfg : Cfg) (p : Ent) (bl : Bool) (c u : Option κ) (now : List (Ent × Ent))
    (st : State α κ) : (beginScope cfg p bl c u now st).erase = beginScope cfg p bl c u now st.erase := by
  unfold beginScope
  dsimp only
  have h0 : ∀ i, (State.erase { st with
    next := st.next + 1
    begun := st.begun ++ [(st.next, p)]
    alive := fun i => if i = st.next then some p else st.alive i
    exits := fun i => if i = st.next ∧ cfg.workflow then some bl else st.exits i
    sessions := st.sessions ++ [{ parent := p, sid := st.next, status := .ongoing }]
    initial := i }) = { st.erase with
    next := st.erase.next + 1
    begun := st.erase.begun ++ [(st.erase.next, p)]
    alive := fun i => if i = st.erase.next then some p else st.erase.alive i
    exits := fun i => if i = st.erase.next ∧ cfg.workflow then some bl else st.erase.exits i
    sessions := st.erase.sessions ++ [{ parent := p, sid := st.erase.next, status := .ongoing }]
    initial := i } := by
    intro i
    simp [State.erase, Scoped.erase, Status.erase]
    exact ⟨rfl, rfl⟩
  have hi : st.erase.initial = st.initial := rfl
  have hnx : st.erase.next = st.next := rfl
  have h1 := h0 st.initial
  rw [hi]
  cases hini : st.initial with
  | some i =>
    rw [hini] at h1
    cases i with
    | error cause =>
      dsimp only
      rw [erase_cancelOne]
      have := h0 (some (.error cause))
      rw [this]; rfl
    | invalidated =>
      dsimp only
      rw [erase_validate]
      have := h0 (some .invalidated)
      rw [this]; rfl
    | confirmed => exact h0 (some .confirmed)
  | none =>
    dsimp only
    cases c with
    | some cause =>
      dsimp only
      rw [erase_cancelOne]
      have := h0 (some (.error cause))
      rw [this]; rfl
    | none =>
      dsimp only
      have he : ∀ (i : Option (Initial κ)) (st : State α κ),
        State.erase { st with initial := i } = { st.erase with initial := i } := fun _ _ => rfl
      rw [he, erase_validate]
      have := h0 none
      rw [this]; rfl

/-- No entry was made by a cleanup request of the parent. -/
def NoEarly (l : List (Awaiting κ)) : Prop := ∀ a ∈ l, a.status ≠ .earlyCleanup

theorem parentClean_noEarly (a : Awaiting κ) (st : State α κ) (h : NoEarly st.awaiting) :
    parentClean a st = false := by
  unfold parentClean
  have : (st.awaiting.filter (fun b => b.cleanup.id = a.cleanup.id)).any
      (fun b => b.status.isEarlyCleanup) = false := by
    rw [List.any_eq_false]
    intro b hb
    have := h b (List.mem_filter.mp hb).1
    revert this
    cases b.status <;> simp [Finish.isEarlyCleanup]
  simp only [this, Bool.false_and]

theorem notifyParent_noEarly (a : Awaiting κ) (st : State α κ) (h : NoEarly st.awaiting) :
    notifyParent a st = st := by
  unfold notifyParent
  rw [parentClean_noEarly a st h]; rfl

theorem endEntry_awaiting (i : Nat) (a : Awaiting κ) (st : State α κ) :
    ∀ b ∈ (endEntry i a st).awaiting, b ∈ st.awaiting := by
  intro b hb
  unfold endEntry at hb
  split at hb
  · exact hb
  · exact List.mem_of_mem_eraseIdx hb
  · exact List.mem_of_mem_eraseIdx hb

theorem erase_endEntry (i : Nat) (a : Awaiting κ) (st : State α κ) :
    (endEntry i a st).erase = endEntry i a st.erase := by
  unfold endEntry
  split
  · rfl
  · rfl
  · exact erase_emit _ _ rfl

theorem erase_leave (s : Ent) (bl : Bool) (st : State α κ) :
    (leave s bl st).erase = leave s bl st.erase := by
  unfold leave
  cases bl
  · rfl
  · simp only [if_true]
    have := erase_emit ({ st with staging := fun i => if i = s then none else st.staging i } : State α κ)
      (.unblock s) rfl
    show ({ (State.erase _) with alive := _ } : State α κ) = _
    rw [this]; rfl

theorem erase_deliver (cfg : Cfg) (a : Awaiting κ) (st : State α κ) :
    (deliver cfg a st).erase = deliver cfg a st.erase := by
  unfold deliver
  dsimp only
  have e1 : st.erase.exits = st.exits := rfl
  have e2 : st.erase.staging = st.staging := rfl
  rw [e1, e2]
  split
  · exact erase_emit _ _ rfl
  · split
    · split
      · exact erase_emit _ _ rfl
      · rw [erase_leave, erase_emit _ _ rfl]; rfl
    · rw [erase_leave]; rfl

theorem erase_finalize (cfg : Cfg) (i : Nat) (st : State α κ) (h : NoEarly st.awaiting) :
    (finalize cfg i st).erase = finalize cfg i st.erase := by
  unfold finalize
  have e1 : st.erase.awaiting = st.awaiting := rfl
  rw [e1]
  split
  · rfl
  · rename_i a _
    rw [notifyParent_noEarly _ _ (fun b hb => h b (endEntry_awaiting i a st b hb)),
      notifyParent_noEarly _ _ (fun b hb => h b (endEntry_awaiting i a st.erase b hb)),
      erase_deliver, erase_endEntry]

theorem erase_checkAwaiting (cfg : Cfg) (s : Ent) (st : State α κ) (h : NoEarly st.awaiting) :
    (checkAwaiting cfg s st).erase = checkAwaiting cfg s st.erase := by
  unfold checkAwaiting
  have e1 : st.erase.awaiting = st.awaiting := rfl
  rw [e1]
  split
  · rfl
  · split
    · split
      · exact erase_finalize cfg _ st h
      · rfl
    · rfl

theorem setFlows_noEarly (s : Ent) (fs : List Ent) : ∀ l : List (Awaiting κ), NoEarly l →
    NoEarly (setFlows s fs l) := by
  intro l
  induction l with
  | nil => intro h; exact h
  | cons a l ih =>
    intro h
    have ha := h a (by simp)
    have hl : NoEarly l := fun b hb => h b (by simp [hb])
    unfold setFlows
    split
    · intro b hb
      rcases List.mem_cons.mp hb with rfl | hb
      · exact ha
      · exact hl b hb
    · intro b hb
      rcases List.mem_cons.mp hb with rfl | hb
      · exact ha
      · exact ih hl b hb

theorem erase_beginFlows (cfg : Cfg) (s : Ent) (st : State α κ) (h : NoEarly st.awaiting) :
    (beginFlows cfg s st).erase = beginFlows cfg s st.erase := by
  have hf : (st.sessions.filter (fun p => p.sid ≠ s)).map Scoped.erase =
      (st.sessions.map Scoped.erase).filter (fun p => p.sid ≠ s) := by
    rw [List.filter_map]; rfl
  unfold beginFlows
  dsimp only
  have e1 : st.erase.awaiting = st.awaiting := rfl
  rw [e1]
  split
  · rw [erase_emit _ _ rfl]
    unfold State.erase
    dsimp only
    rw [hf]
  · rw [erase_checkAwaiting _ _ _ (setFlows_noEarly _ _ _ h)]
    unfold State.erase
    dsimp only
    rw [hf]

theorem erase_trigger (cfg : Cfg) (st : State α κ) (h : NoEarly st.awaiting) :
    (trigger cfg st).erase = trigger cfg st.erase := by
  unfold trigger
  have e1 : st.erase.finished = st.finished := rfl
  rw [e1]
  split
  · rfl
  · rename_i c rest _
    exact erase_beginFlows cfg _ { st with
        finished := rest
        contents := fun i => if i = c.id then none else st.contents i } h

theorem set_noEarly {l : List (Awaiting κ)} (h : NoEarly l) (i : Nat) {a : Awaiting κ}
    (ha : a.status ≠ .earlyCleanup) : NoEarly (l.set i a) := by
  intro b hb
  rcases List.mem_or_eq_of_mem_set hb with hb | rfl
  · exact h b hb
  · exact ha

theorem during_noEarly {f : Finish κ} (h : f ≠ .earlyCleanup) (k : Option κ) :
    f.during k ≠ .earlyCleanup := by
  revert h; cases f <;> cases k <;> simp [Finish.during]

theorem erase_deduct (cfg : Cfg) (w : Ent) (k : Option κ) (st : State α κ) (h : NoEarly st.awaiting) :
    (deduct cfg w k st).erase = deduct cfg w k st.erase := by
  unfold deduct
  have e1 : st.erase.awaiting = st.awaiting := rfl
  rw [e1]
  split
  · rfl
  · split
    · rfl
    · rename_i a ha
      dsimp only
      split
      · rw [erase_finalize _ _ _ (set_noEarly h _ (during_noEarly (h a (List.mem_of_getElem? ha)) k))]
        rfl
      · rfl

/-! Entries are made by ends only. -/

theorem cleanOne_noEarly (cfg : Cfg) (c : Cleanup) (f : Finish κ) (hf : f ≠ .earlyCleanup)
    (now : List (Ent × Ent)) (s : Ent) (st st' : State α κ) (h : NoEarly st.awaiting)
    (e : cleanOne cfg c f now s st = some st') : NoEarly st'.awaiting := by
  unfold cleanOne at e
  split at e
  · cases e
  · dsimp only at e
    have key : ∀ p, NoEarly (st.awaiting ++ [{ sid := s, parent := p, cleanup := c, status := f }]) := by
      intro p b hb
      rcases List.mem_append.mp hb with hb | hb
      · exact h b hb
      · rw [List.mem_singleton.mp hb]; exact hf
    split at e
    · injection e with e; subst e; exact key _
    · injection e with e; subst e
      rw [(cleanNodes_frame _ _ _ _ _ _).awaiting]
      exact key _

theorem cleanupEntire_noEarly (cfg : Cfg) (c : Cleanup) (f : Finish κ) (hf : f ≠ .earlyCleanup)
    (now : List (Ent × Ent)) : ∀ (l : List Ent) (st : State α κ), NoEarly st.awaiting →
      NoEarly (cleanupEntire cfg c f now l st).awaiting := by
  intro l
  induction l with
  | nil => intro st h; exact h
  | cons s ss ih =>
    intro st h
    simp only [cleanupEntire]
    split
    · exact h
    · rename_i st' e
      exact ih _ (cleanOne_noEarly cfg c f hf now s st st' h e)

theorem cancelOne_noEarly (cfg : Cfg) (s : Ent) (k : κ) (now : List (Ent × Ent)) (st : State α κ)
    (h : NoEarly st.awaiting) : NoEarly (cancelOne cfg s k now st).awaiting := by
  unfold cancelOne
  exact cleanupEntire_noEarly _ _ _ (by simp) _ _ _ h

theorem cancelAll_noEarly (cfg : Cfg) (k : κ) (now : List (Ent × Ent)) : ∀ (l : List Ent)
    (st : State α κ), NoEarly st.awaiting → NoEarly (cancelAll cfg k now l st).awaiting := by
  intro l
  induction l with
  | nil => intro st h; exact h
  | cons s ss ih => intro st h; exact ih _ (cancelOne_noEarly cfg s k now st h)

theorem validate_noEarly (cfg : Cfg) (s : Ent) (u : Option κ) (now : List (Ent × Ent))
    (st : State α κ) (h : NoEarly st.awaiting) : NoEarly (validate cfg s u now st).awaiting := by
  unfold validate
  split
  · exact h
  · split
    · exact h
    · dsimp only
      split
      · exact cleanupEntire_noEarly _ _ _ (by simp) _ _ _ h
      · exact h

theorem terminate_noEarly (cfg : Cfg) (s : Ent) (v : α) (now : List (Ent × Ent))
    (st : State α κ) (h : NoEarly st.awaiting) : NoEarly (terminate cfg s v now st).awaiting := by
  unfold terminate
  dsimp only
  split
  · exact h
  · split
    · exact h
    · split
      · exact cleanupEntire_noEarly _ _ _ (by simp) _ _ _ h
      · exact h

theorem begin_noEarly (cfg : Cfg) (p : Ent) (bl : Bool) (c u : Option κ) (now : List (Ent × Ent))
    (st : State α κ) (h : NoEarly st.awaiting) : NoEarly (beginScope cfg p bl c u now st).awaiting := by
  unfold beginScope
  dsimp only
  split
  · exact cancelOne_noEarly _ _ _ _ _ h
  · exact validate_noEarly _ _ _ _ _ h
  · exact h
  · split
    · exact cancelOne_noEarly _ _ _ _ _ h
    · exact validate_noEarly _ _ _ _ _ h

theorem finalize_noEarly (cfg : Cfg) (i : Nat) (st : State α κ) (h : NoEarly st.awaiting) :
    NoEarly (finalize cfg i st).awaiting := by
  unfold finalize
  split
  · exact h
  · rename_i a _
    have h1 : NoEarly (endEntry i a st).awaiting :=
      fun b hb => h b (endEntry_awaiting i a st b hb)
    rw [notifyParent_noEarly _ _ h1]
    have : (deliver cfg a (endEntry i a st)).awaiting = (endEntry i a st).awaiting := by
      unfold deliver
      dsimp only
      have hleave : ∀ (bl : Bool) (st : State α κ), (leave a.sid bl st).awaiting = st.awaiting := by
        intro bl st; cases bl <;> rfl
      split
      · rfl
      · split
        · split
          · rfl
          · rw [hleave]; rfl
        · rw [hleave]
    rw [this]; exact h1

theorem trigger_noEarly (cfg : Cfg) (st : State α κ) (h : NoEarly st.awaiting) :
    NoEarly (trigger cfg st).awaiting := by
  unfold trigger
  split
  · exact h
  · unfold beginFlows
    dsimp only
    split
    · exact h
    · unfold checkAwaiting
      have h1 := setFlows_noEarly (κ := κ)
      split
      · exact h1 _ _ _ h
      · split
        · split
          · exact finalize_noEarly _ _ _ (h1 _ _ _ h)
          · exact h1 _ _ _ h
        · exact h1 _ _ _ h

theorem deduct_noEarly (cfg : Cfg) (w : Ent) (k : Option κ) (st : State α κ)
    (h : NoEarly st.awaiting) : NoEarly (deduct cfg w k st).awaiting := by
  unfold deduct
  split
  · exact h
  · split
    · exact h
    · rename_i a ha
      dsimp only
      have h1 := fun i => set_noEarly h i (a := { a with
        status := a.status.during k, flows := some ((a.flows.getD []).filter (· ≠ w)) })
        (during_noEarly (h a (List.mem_of_getElem? ha)) k)
      split
      · exact finalize_noEarly _ _ _ (h1 _)
      · exact h1 _

/-- A cleanup request changes nothing in an uninterruptible scope except that it is answered. -/
theorem dynCleanup_noEarly (cfg : Cfg) (hu : cfg.uninterruptible = true) (c : Cleanup)
    (now : List (Ent × Ent)) (st : State α κ) :
    dynCleanup cfg c now st = State.emit { st with
      sessions := (transition (fun p => p.parent == c.session) (Status.toCleanup true) st.sessions).1 }
      (.notify c) := by
  unfold dynCleanup
  rw [hu]
  have : (transition (fun p => p.parent == c.session) (Status.toCleanup true) st.sessions).2 = [] := by
    unfold transition
    simp only [List.map_eq_nil_iff, List.filter_eq_nil_iff]
    intro x _
    cases x.status <;> simp [Status.toCleanup]
  dsimp only
  rw [this]
  rfl

theorem erase_dynCleanup (cfg : Cfg) (hu : cfg.uninterruptible = true) (c : Cleanup)
    (now : List (Ent × Ent)) (st : State α κ)
    (hl : ∀ x ∈ st.sessions, x.parent = c.session → ¬ x.status.Ended) :
    (dynCleanup cfg c now st).erase = st.erase := by
  rw [dynCleanup_noEarly cfg hu]
  unfold State.erase State.emit
  dsimp only
  have h1 : (st.out ++ [Out.notify c]).filter (fun o => !o.isNotify) =
      st.out.filter (fun o => !o.isNotify) := by
    rw [List.filter_append]; simp [Out.isNotify]
  have h2 : (transition (fun p => p.parent == c.session) (Status.toCleanup true) st.sessions).1.map
      Scoped.erase = st.sessions.map Scoped.erase := by
    unfold transition
    simp only [List.map_map]
    apply List.map_congr_left
    intro x hx
    simp only [Function.comp]
    split
    · rename_i hp
      have := hl x hx (by simpa using hp)
      show Scoped.mk x.parent x.sid (Status.toCleanup true x.status).1.erase =
        Scoped.mk x.parent x.sid x.status.erase
      revert this
      cases x.status <;> simp [Status.Ended, Status.toCleanup, Status.erase]
    · rfl
  rw [h1, h2]

theorem step_noEarly (cfg : Cfg) (hu : cfg.uninterruptible = true) (st : State α κ) (e : Ev α κ)
    (h : NoEarly st.awaiting) : NoEarly (step cfg st e).awaiting := by
  cases e with
  | spawn => exact h
  | «begin» p bl c u now => exact begin_noEarly cfg p bl c u now st h
  | terminate s v now =>
    simp only [step]
    split
    · exact terminate_noEarly cfg s v now st h
    · exact h
  | cancel s k now =>
    cases s with
    | none => exact cancelAll_noEarly cfg k now _ st h
    | some s => exact cancelOne_noEarly cfg s k now st h
  | validate s u now => exact validate_noEarly cfg s u now st h
  | cleanup c now => simp only [step]; rw [dynCleanup_noEarly cfg hu]; exact h
  | cleaned c =>
    simp only [step]
    split
    · rw [(register_frame _ _).awaiting]; exact h
    · exact h
  | trigger => exact trigger_noEarly cfg st h
  | flowDone w k => exact deduct_noEarly cfg w k _ h
  | despawn p => exact h

theorem step_erase (cfg : Cfg) (st : State α κ) (e : Ev α κ)
    (h : NoEarly st.awaiting) (he : e.isCleanup = false) :
    (step cfg st e).erase = step cfg st.erase e := by
  cases e with
  | spawn => rfl
  | «begin» p bl c u now => exact erase_begin cfg p bl c u now st
  | terminate s v now =>
    simp only [step]
    have : st.erase.next = st.next := rfl
    rw [this]
    split
    · exact erase_terminate cfg s v now st
    · rfl
  | cancel s k now =>
    cases s with
    | none =>
      simp only [step]
      have : st.erase.sessions.map (·.sid) = st.sessions.map (·.sid) := by
        unfold State.erase
        dsimp only
        rw [List.map_map]; rfl
      rw [this]
      exact erase_cancelAll cfg k now _ st
    | some s => exact erase_cancelOne cfg s k now st
  | validate s u now => exact erase_validate cfg s u now st
  | cleanup c now => cases he
  | cleaned c =>
    simp only [step]
    have : st.erase.pending = st.pending := rfl
    rw [this]
    split
    · rw [erase_register]; rfl
    · rfl
  | trigger => exact erase_trigger cfg st h
  | flowDone w k => exact erase_deduct cfg w k { st with running := st.running.filter (fun r => r.1 ≠ w) } h
  | despawn p => rfl

theorem run_erase (cfg : Cfg) (hu : cfg.uninterruptible = true) : ∀ (es : List (Ev α κ))
    (st st' : State α κ), NoEarly st.awaiting → st.erase = st' → Along cfg (NoLateCleanup cfg) st es →
      (run cfg st es).erase = run cfg st' (es.filter (fun e => !e.isCleanup)) := by
  intro es
  induction es with
  | nil => intro st st' _ h _; exact h
  | cons e es ih =>
    intro st st' hn h ha
    simp only [run]
    cases hc : e.isCleanup with
    | false =>
      rw [List.filter_cons_of_pos (by rw [hc]; rfl)]
      simp only [run]
      refine ih _ _ (step_noEarly cfg hu st e hn) ?_ ha.2
      rw [step_erase cfg st e hn hc, h]
    | true =>
      rw [List.filter_cons_of_neg (by rw [hc]; decide)]
      refine ih _ _ (step_noEarly cfg hu st e hn) ?_ ha.2
      cases e <;> first | (cases hc; done) | skip
      rename_i c now
      simp only [step]
      rw [erase_dynCleanup cfg hu c now st (ha.1 hu), h]

end Verif.Scope
