import Verif.Scope.Safe

/-
The invariant of runs in which the parent leaves the scope alone.
-/
set_option linter.unusedSimpArgs false
set_option linter.unusedVariables false
namespace Verif.Scope

variable {α κ : Type}

/-- The clean request of an entry to a node. -/
def mkClean (cfg : Cfg) (a : Awaiting κ) (n : Ent) : Cleanup :=
  { cleaner := cfg.self, node := n, session := a.sid, id := a.cleanup.id }

/-- The state of the cleanup of the operations, for an entry whose cleanup workflows have not
begun. -/
def Prog (cfg : Cfg) (a : Awaiting κ) (st : State α κ) : Prop :=
  (st.contents a.cleanup.id = none ∧
    (∃ n, st.finished.filter (fun c => c.session = a.sid) = [mkClean cfg a n]) ∧
    st.pending.filter (fun c => c.session = a.sid) = []) ∨
  (∃ ns, ns ≠ [] ∧ ns.Nodup ∧ st.contents a.cleanup.id = some ns ∧
    st.finished.filter (fun c => c.session = a.sid) = [] ∧
    st.pending.filter (fun c => c.session = a.sid) = ns.map (mkClean cfg a))

/-- All operations were asked to clean up the session. -/
def AllAsked (cfg : Cfg) (s : Ent) (st : State α κ) : Prop :=
  ∀ n ∈ cfg.nodes, ∃ c ∈ st.asked, c.node = n ∧ c.session = s

/-- All cleanup workflows that apply were started. -/
def AllStarted (cfg : Cfg) (s : Ent) (terminated : Bool) (st : State α κ) : Prop :=
  ∀ f ∈ flowsToRun cfg terminated, (s, f) ∈ st.started

def Out.parentOf : Out α κ → Option Ent
  | .respond _ p _ => some p
  | .cancel _ p _ _ => some p
  | _ => none

def Out.isResponse : Out α κ → Bool
  | .respond _ _ _ => true
  | _ => false

/-- The invariant. `ex`: a session whose entry may have no cleanup workflow left, because it
is just about to be finalized. -/
structure Quiet (cfg : Cfg) (ex : Option Ent) (st : State α κ) : Prop where
  nodup : (st.sessions.map (·.sid)).Nodup
  aNodup : (st.awaiting.map (·.sid)).Nodup
  noEarly : ∀ a ∈ st.awaiting, a.status ≠ .earlyCleanup
  status : ∀ x ∈ st.sessions, x.status = .ongoing ∨ x.status.Ended
  alive : ∀ x ∈ st.sessions, st.alive x.sid = some x.parent
  sExit : cfg.workflow = true → ∀ x ∈ st.sessions, (st.exits x.sid).isSome
  aExit : cfg.workflow = true → ∀ a ∈ st.awaiting, (st.exits a.sid).isSome
  bS : ∀ x ∈ st.sessions, x.sid < st.next ∧ x.parent < st.next
  started : ∀ x ∈ st.sessions, x.status.Ended → ∃ a ∈ st.awaiting, a.sid = x.sid
  begunA : ∀ a ∈ st.awaiting, a.flows ≠ none → ∀ x ∈ st.sessions, x.sid ≠ a.sid
  idle : ∀ a ∈ st.awaiting, a.flows = none → ∃ x ∈ st.sessions, x.sid = a.sid ∧
    x.parent = a.parent ∧ x.status.Ended
  ids : ∀ a ∈ st.awaiting, a.flows = none → a.cleanup.id = a.sid ∨
    (a.cleanup.id = a.parent ∧ ∀ x ∈ st.sessions, x.sid ≠ a.cleanup.id)
  idInj : ∀ a ∈ st.awaiting, ∀ b ∈ st.awaiting, a.flows = none → b.flows = none →
    a.cleanup.id = b.cleanup.id → a.sid = b.sid
  prog : ∀ a ∈ st.awaiting, a.flows = none → Prog cfg a st
  cont : ∀ i ns, st.contents i = some ns → ∃ a ∈ st.awaiting, a.flows = none ∧ a.cleanup.id = i
  fin : ∀ c ∈ st.finished, ∃ a ∈ st.awaiting, a.flows = none ∧ a.sid = c.session
  pend : ∀ c ∈ st.pending, ∃ a ∈ st.awaiting, a.flows = none ∧ a.sid = c.session
  flows : ∀ a ∈ st.awaiting, ∀ fs, a.flows = some fs → (some a.sid ≠ ex → fs ≠ []) ∧
    ∀ w, w ∈ fs ↔ (w, a.sid) ∈ st.running
  run : ∀ r ∈ st.running, ∃ a ∈ st.awaiting, a.sid = r.2 ∧ a.flows ≠ none
  runNodup : (st.running.map (·.1)).Nodup
  runB : ∀ r ∈ st.running, r.1 < st.next
  asked : ∀ a ∈ st.awaiting, AllAsked cfg a.sid st
  flowStarted : ∀ a ∈ st.awaiting, a.flows ≠ none → AllStarted cfg a.sid a.status.isTerminated st
  over : ∀ s, ∀ o ∈ outcomes s st, (∀ a ∈ st.awaiting, a.sid ≠ s) ∧ (∀ x ∈ st.sessions, x.sid ≠ s) ∧
    AllAsked cfg s st ∧ AllStarted cfg s o.isResponse st
  begun : ∀ b ∈ st.begun, (∃ x ∈ st.sessions, x.sid = b.1 ∧ x.parent = b.2) ∨
    (∃ a ∈ st.awaiting, a.sid = b.1 ∧ a.parent = b.2) ∨
    (∃ o ∈ outcomes b.1 st, o.parentOf = some b.2)
  begunB : ∀ b ∈ st.begun, b.1 < st.next
  aB : ∀ a ∈ st.awaiting, a.sid < st.next
  oB : ∀ s, outcomes s st ≠ [] → s < st.next

theorem new_quiet (cfg : Cfg) (n : Ent) : Quiet cfg none (State.new n : State α κ) := by
  constructor <;> simp [State.new, outcomes]

/-- The start of a cleanup of one session. -/
theorem start_quiet (cfg : Cfg) (hn : cfg.nodes.Nodup) (st : State α κ) (h : Quiet cfg none st)
    (l1 l2 : List Scoped) (x : Scoped) (hl : st.sessions = l1 ++ x :: l2)
    (hx : x.status = .ongoing) (s' : Status) (hs' : s'.Ended) (c : Cleanup) (status : Finish κ)
    (now : List (Ent × Ent)) (he : status ≠ .earlyCleanup)
    (hid : c.id = x.sid ∨ (c.id = x.parent ∧ ∀ y ∈ st.sessions, y.sid ≠ c.id))
    (hnew : ∀ b ∈ st.awaiting, b.flows = none → b.cleanup.id ≠ c.id)
    (hout : outcomes x.sid st = []) :
    Quiet cfg none (cleanupEntire cfg c status now [x.sid]
      { st with sessions := l1 ++ { x with status := s' } :: l2 }) := by
  have hxm : x ∈ st.sessions := by rw [hl]; simp
  have hnoent : ∀ b ∈ st.awaiting, b.sid ≠ x.sid := by
    intro b hb e
    cases hf : b.flows with
    | none =>
      obtain ⟨y, hy, e1, _, e3⟩ := h.idle b hb hf
      have := eq_of_nodup_map _ h.nodup hy hxm (e1.trans e)
      subst this
      rw [hx] at e3; exact e3
    | some fs => exact h.begunA b hb (by rw [hf]; simp) x hxm e.symm
  have hnofin : st.finished.filter (fun c => c.session = x.sid) = [] := by
    rw [List.filter_eq_nil_iff]
    intro d hd e
    obtain ⟨a, ha, _, e2⟩ := h.fin d hd
    exact hnoent a ha (e2.trans (by simpa using e))
  have hnopend : st.pending.filter (fun c => c.session = x.sid) = [] := by
    rw [List.filter_eq_nil_iff]
    intro d hd e
    obtain ⟨a, ha, _, e2⟩ := h.pend d hd
    exact hnoent a ha (e2.trans (by simpa using e))
  -- the new state
  let a : Awaiting κ := { sid := x.sid, parent := x.parent, cleanup := c, status := status }
  have key : ∃ st', cleanupEntire cfg c status now [x.sid]
      { st with sessions := l1 ++ { x with status := s' } :: l2 } = st' ∧
      Frame { st with sessions := l1 ++ { x with status := s' } :: l2, awaiting := st.awaiting ++ [a] } st' ∧
      Prog cfg a st' ∧ AllAsked cfg x.sid st' ∧ (∀ d ∈ st.asked, d ∈ st'.asked) ∧
      (∀ i, i ≠ c.id → st'.contents i = st.contents i) ∧
      (∀ d ∈ st'.finished, d ∈ st.finished ∨ d.session = x.sid) ∧
      (∀ d ∈ st'.pending, d ∈ st.pending ∨ d.session = x.sid) ∧
      (∀ s, s ≠ x.sid → st'.finished.filter (fun c => c.session = s) =
        st.finished.filter (fun c => c.session = s)) ∧
      (∀ s, s ≠ x.sid → st'.pending.filter (fun c => c.session = s) =
        st.pending.filter (fun c => c.session = s)) := by
    unfold cleanupEntire
    unfold cleanOne
    dsimp only
    rw [h.alive x hxm]
    dsimp only
    by_cases hne : cfg.nodes.isEmpty = true
    · rw [if_pos hne]
      dsimp only [cleanupEntire]
      refine ⟨_, rfl, ⟨rfl, rfl, rfl, rfl, rfl, rfl, rfl, rfl, rfl, rfl, rfl, rfl⟩, ?_, ?_, ?_, ?_, ?_, ?_, ?_, ?_⟩
      · refine Or.inl ⟨?_, ⟨cfg.self, ?_⟩, hnopend⟩
        · show st.contents c.id = none
          cases hc : st.contents c.id with
          | none => rfl
          | some ns =>
            obtain ⟨b, hb, h1, h2⟩ := h.cont _ _ hc
            exact absurd h2 (hnew b hb h1)
        · show List.filter _ (_ :: st.finished) = _
          rw [List.filter_cons_of_pos (by simp [a]), hnofin]
          rfl
      · intro n hn'
        have : cfg.nodes = [] := by simpa using hne
        rw [this] at hn'; cases hn'
      · intro d hd; exact hd
      · intro i hi; rfl
      · intro d hd
        rcases List.mem_cons.mp hd with rfl | hd
        · exact Or.inr rfl
        · exact Or.inl hd
      · intro d hd; exact Or.inl hd
      · intro s hs
        simp [List.filter_cons, Ne.symm hs]
      · intro s hs; rfl
    · rw [if_neg hne]
      dsimp only [cleanupEntire]
      have hne' : cfg.nodes ≠ [] := by simpa using hne
      have hfr := cleanNodes_frame cfg.self x.sid c.id now cfg.nodes
        { st with
          sessions := l1 ++ { x with status := s' } :: l2
          awaiting := st.awaiting ++ [a]
          contents := fun i => if i = c.id then some cfg.nodes else st.contents i }
      have heq := cleanNodes_eq cfg.self x.sid c.id now cfg.nodes
        { st with
          sessions := l1 ++ { x with status := s' } :: l2
          awaiting := st.awaiting ++ [a]
          contents := fun i => if i = c.id then some cfg.nodes else st.contents i } []
        (by simp) (by simpa using hn) (by simpa using hne')
      generalize hst' : cleanNodes cfg.self x.sid c.id now cfg.nodes _ = st' at heq hfr
      dsimp only at heq
      obtain ⟨e1, e2, e3, e4⟩ := heq
      refine ⟨st', rfl, ?_, ?_, ?_, ?_, ?_, ?_, ?_, ?_, ?_⟩
      · exact ⟨hfr.1, hfr.2, hfr.3, hfr.4, hfr.5, hfr.6, hfr.7, hfr.8, hfr.9, hfr.10, hfr.11, hfr.12⟩
      · have hpf : st'.pending.filter (fun c => c.session = x.sid) =
            (cfg.nodes.filter (fun n => !now.contains (n, x.sid))).map (mkClean cfg a) := by
          rw [e2, List.filter_append, hnopend, List.nil_append, List.filter_eq_self.mpr]
          · rfl
          · intro d hd
            obtain ⟨n, _, rfl⟩ := List.mem_map.mp hd
            simp
        rcases e4 with ⟨f1, f2, n, f3⟩ | ⟨f1, f2, f3⟩
        · refine Or.inl ⟨f2, ⟨n, ?_⟩, ?_⟩
          · rw [f3, List.filter_cons_of_pos (by simp [a])]
            show _ :: st.finished.filter _ = _
            rw [hnofin]
            rfl
          · rw [hpf]
            simp only [List.nil_append] at f1
            rw [f1]; rfl
        · refine Or.inr ⟨_, by simpa using f1, ?_, f2, ?_, ?_⟩
          · exact hn.sublist (by simp)
          · rw [f3]; exact hnofin
          · rw [hpf]; rfl
      · intro n hn'
        refine ⟨{ cleaner := cfg.self, node := n, session := x.sid, id := c.id }, ?_, rfl, rfl⟩
        rw [e1]
        exact List.mem_append_right _ (List.mem_map.mpr ⟨n, hn', rfl⟩)
      · intro d hd; rw [e1]; exact List.mem_append_left _ hd
      · intro i hi; rw [e3 i hi]; simp [hi]
      · intro d hd
        rcases e4 with ⟨f1, f2, n, f3⟩ | ⟨f1, f2, f3⟩
        · rw [f3] at hd
          rcases List.mem_cons.mp hd with rfl | hd
          · exact Or.inr rfl
          · exact Or.inl hd
        · rw [f3] at hd; exact Or.inl hd
      · intro d hd
        rw [e2] at hd
        rcases List.mem_append.mp hd with hd | hd
        · exact Or.inl hd
        · obtain ⟨n, _, rfl⟩ := List.mem_map.mp hd
          exact Or.inr rfl
      · intro s hs
        rcases e4 with ⟨f1, f2, n, f3⟩ | ⟨f1, f2, f3⟩
        · rw [f3, List.filter_cons_of_neg (by simpa using Ne.symm hs)]
        · rw [f3]
      · intro s hs
        rw [e2, List.filter_append]
        have : (List.map (fun n => ({ cleaner := cfg.self, node := n, session := x.sid, id := c.id } : Cleanup))
            (cfg.nodes.filter (fun n => !now.contains (n, x.sid)))).filter (fun c => c.session = s) = [] := by
          rw [List.filter_eq_nil_iff]
          intro d hd
          obtain ⟨n, _, rfl⟩ := List.mem_map.mp hd
          simpa using Ne.symm hs
        rw [this, List.append_nil]
  obtain ⟨st', hst', hfr, hprog, hasked, hmono, hcont, hfin, hpend, hfinF, hpendF⟩ := key
  rw [hst']
  have hS := hfr.sessions
  have hA := hfr.awaiting
  have hsid : (l1 ++ { x with status := s' } :: l2).map (·.sid) = st.sessions.map (·.sid) := by
    rw [hl]; simp
  have memS : ∀ y ∈ st'.sessions, ∃ z ∈ st.sessions, z.sid = y.sid ∧ z.parent = y.parent ∧
      (z = y ∨ (z = x ∧ y.status = s')) := by
    intro y hy
    rw [hS] at hy
    simp only [List.mem_append, List.mem_cons] at hy
    rcases hy with hy | rfl | hy
    · exact ⟨y, by rw [hl]; simp [hy], rfl, rfl, Or.inl rfl⟩
    · exact ⟨x, hxm, rfl, rfl, Or.inr ⟨rfl, rfl⟩⟩
    · exact ⟨y, by rw [hl]; simp [hy], rfl, rfl, Or.inl rfl⟩
  have memS' : ∀ z ∈ st.sessions, ∃ y ∈ st'.sessions, z.sid = y.sid ∧ z.parent = y.parent ∧
      (z = y ∨ (z = x ∧ y.status = s')) := by
    intro z hz
    rw [hl] at hz
    simp only [List.mem_append, List.mem_cons] at hz
    rcases hz with hz | rfl | hz
    · exact ⟨z, by rw [hS]; simp [hz], rfl, rfl, Or.inl rfl⟩
    · exact ⟨{ z with status := s' }, by rw [hS]; simp, rfl, rfl, Or.inr ⟨rfl, rfl⟩⟩
    · exact ⟨z, by rw [hS]; simp [hz], rfl, rfl, Or.inl rfl⟩
  have memA : ∀ b ∈ st'.awaiting, b ∈ st.awaiting ∨ b = a := by
    intro b hb
    rw [hA] at hb
    simpa using hb
  have memA' : ∀ b ∈ st.awaiting, b ∈ st'.awaiting := by
    intro b hb; rw [hA]; simp [hb]
  have haA : a ∈ st'.awaiting := by rw [hA]; simp
  have hprog' : ∀ b ∈ st.awaiting, b.flows = none → Prog cfg b st' := by
    intro b hb hf
    have hne := hnoent b hb
    have := h.prog b hb hf
    unfold Prog at this ⊢
    rw [hfinF _ hne, hpendF _ hne, hcont _ (hnew b hb hf)]
    exact this
  have hoc : ∀ s, outcomes s st' = outcomes s st := fun s => by
    simp only [outcomes, hfr.out]
  refine
    { nodup := ?_
      aNodup := ?_
      noEarly := ?_
      status := ?_
      alive := ?_
      sExit := ?_
      aExit := ?_
      bS := ?_
      started := ?_
      begunA := ?_
      idle := ?_
      ids := ?_
      idInj := ?_
      prog := ?_
      cont := ?_
      fin := ?_
      pend := ?_
      flows := ?_
      run := ?_
      runNodup := ?_
      runB := ?_
      asked := ?_
      flowStarted := ?_
      over := ?_
      begun := ?_
      begunB := ?_
      aB := ?_
      oB := ?_ }
  · rw [hS, hsid]; exact h.nodup
  · rw [hA]
    simp only [List.map_append, List.map_cons, List.map_nil]
    refine List.nodup_append.mpr ⟨h.aNodup, by simp, ?_⟩
    intro i hi j hj
    simp only [List.mem_singleton] at hj
    obtain ⟨b, hb, rfl⟩ := List.mem_map.mp hi
    rw [hj]; exact hnoent b hb
  · intro b hb
    rcases memA b hb with hb | rfl
    · exact h.noEarly b hb
    · exact he
  · intro y hy
    obtain ⟨z, hz, _, _, rfl | ⟨rfl, e⟩⟩ := memS y hy
    · exact h.status z hz
    · rw [e]; exact Or.inr hs'
  · intro y hy
    obtain ⟨z, hz, e1, e2, _⟩ := memS y hy
    rw [hfr.alive, ← e1, ← e2]; exact h.alive z hz
  · intro hw y hy
    obtain ⟨z, hz, e1, e2, _⟩ := memS y hy
    rw [hfr.exits, ← e1]; exact h.sExit hw z hz
  · intro hw b hb
    rw [hfr.exits]
    rcases memA b hb with hb | rfl
    · exact h.aExit hw b hb
    · exact h.sExit hw x hxm
  · intro y hy
    obtain ⟨z, hz, e1, e2, _⟩ := memS y hy
    rw [hfr.next, ← e1, ← e2]; exact h.bS z hz
  · intro y hy hend
    obtain ⟨z, hz, e1, e2, rfl | ⟨rfl, e⟩⟩ := memS y hy
    · obtain ⟨b, hb, e⟩ := h.started z hz hend
      exact ⟨b, memA' b hb, e⟩
    · exact ⟨a, haA, e1⟩
  · intro b hb hf y hy
    obtain ⟨z, hz, e1, _⟩ := memS y hy
    rcases memA b hb with hb | rfl
    · rw [← e1]; exact h.begunA b hb hf z hz
    · exact absurd rfl hf
  · intro b hb hf
    rcases memA b hb with hb | rfl
    · obtain ⟨z, hz, e1, e2, e3⟩ := h.idle b hb hf
      obtain ⟨y, hy, f1, f2, rfl | ⟨rfl, f3⟩⟩ := memS' z hz
      · exact ⟨z, hy, e1, e2, e3⟩
      · exact ⟨y, hy, f1 ▸ e1, f2 ▸ e2, by rw [f3]; exact hs'⟩
    · obtain ⟨y, hy, f1, f2, f3⟩ := memS' x hxm
      refine ⟨y, hy, f1.symm, f2.symm, ?_⟩
      rcases f3 with rfl | ⟨_, f3⟩
      · have : x ∈ st'.sessions := hy
        exfalso
        -- the session was changed
        have hnd : ((l1 ++ { x with status := s' } :: l2).map (·.sid)).Nodup := by
          rw [hsid]; exact h.nodup
        rw [hS] at hy
        have := eq_of_nodup_map _ hnd hy (show ({ x with status := s' } : Scoped) ∈ _ by simp) rfl
        have h2 : s' = x.status := (congrArg Scoped.status this).symm
        rw [h2, hx] at hs'; exact hs'
      · rw [f3]; exact hs'
  · intro b hb hf
    rcases memA b hb with hb | rfl
    · rcases h.ids b hb hf with e | ⟨e1, e2⟩
      · exact Or.inl e
      · refine Or.inr ⟨e1, fun y hy => ?_⟩
        obtain ⟨z, hz, f1, _⟩ := memS y hy
        rw [← f1]; exact e2 z hz
    · rcases hid with e | ⟨e1, e2⟩
      · exact Or.inl e
      · refine Or.inr ⟨e1, fun y hy => ?_⟩
        obtain ⟨z, hz, f1, _⟩ := memS y hy
        rw [← f1]; exact e2 z hz
  · intro b hb d hd hfb hfd e
    rcases memA b hb with hb | rfl <;> rcases memA d hd with hd | rfl
    · exact h.idInj b hb d hd hfb hfd e
    · exact absurd e (hnew b hb hfb)
    · exact absurd e.symm (hnew d hd hfd)
    · rfl
  · intro b hb hf
    rcases memA b hb with hb | rfl
    · exact hprog' b hb hf
    · exact hprog
  · intro i ns hi
    by_cases e : i = c.id
    · exact ⟨a, haA, rfl, e.symm⟩
    · rw [hcont i e] at hi
      obtain ⟨b, hb, h1, h2⟩ := h.cont i ns hi
      exact ⟨b, memA' b hb, h1, h2⟩
  · intro d hd
    rcases hfin d hd with hd | hd
    · obtain ⟨b, hb, h1, h2⟩ := h.fin d hd
      exact ⟨b, memA' b hb, h1, h2⟩
    · exact ⟨a, haA, rfl, hd.symm⟩
  · intro d hd
    rcases hpend d hd with hd | hd
    · obtain ⟨b, hb, h1, h2⟩ := h.pend d hd
      exact ⟨b, memA' b hb, h1, h2⟩
    · exact ⟨a, haA, rfl, hd.symm⟩
  · intro b hb fs hf
    rw [hfr.running]
    rcases memA b hb with hb | rfl
    · exact h.flows b hb fs hf
    · cases hf
  · intro r hr
    rw [hfr.running] at hr
    obtain ⟨b, hb, h1, h2⟩ := h.run r hr
    exact ⟨b, memA' b hb, h1, h2⟩
  · rw [hfr.running]; exact h.runNodup
  · intro r hr
    rw [hfr.running] at hr
    rw [hfr.next]; exact h.runB r hr
  · intro b hb
    rcases memA b hb with hb | rfl
    · intro n hn'
      obtain ⟨d, hd, e⟩ := h.asked b hb n hn'
      exact ⟨d, hmono d hd, e⟩
    · exact hasked
  · intro b hb hf
    rcases memA b hb with hb | rfl
    · intro f hf'
      rw [hfr.started]; exact h.flowStarted b hb hf f hf'
    · exact absurd rfl hf
  · intro s o ho
    rw [hoc] at ho
    obtain ⟨h1, h2, h3, h4⟩ := h.over s o ho
    have hne : x.sid ≠ s := h2 x hxm
    refine ⟨?_, ?_, ?_, ?_⟩
    · intro b hb
      rcases memA b hb with hb | rfl
      · exact h1 b hb
      · exact hne
    · intro y hy
      obtain ⟨z, hz, e1, _⟩ := memS y hy
      rw [← e1]; exact h2 z hz
    · intro n hn'
      obtain ⟨d, hd, e⟩ := h3 n hn'
      exact ⟨d, hmono d hd, e⟩
    · intro f hf; rw [hfr.started]; exact h4 f hf
  · intro b hb
    rw [hfr.begun] at hb
    rw [hoc]
    rcases h.begun b hb with ⟨z, hz, e1, e2⟩ | ⟨d, hd, e⟩ | ho
    · obtain ⟨y, hy, f1, f2, _⟩ := memS' z hz
      exact Or.inl ⟨y, hy, f1 ▸ e1, f2 ▸ e2⟩
    · exact Or.inr (Or.inl ⟨d, memA' d hd, e⟩)
    · exact Or.inr (Or.inr ho)
  · intro b hb
    rw [hfr.begun] at hb
    rw [hfr.next]; exact h.begunB b hb
  · intro b hb
    rw [hfr.next]
    rcases memA b hb with hb | rfl
    · exact h.aB b hb
    · exact (h.bS x hxm).1
  · intro s ho
    rw [hoc] at ho
    rw [hfr.next]; exact h.oB s ho

/-- Components that do not matter. -/
theorem Quiet.congr {cfg : Cfg} {ex : Option Ent} {st st' : State α κ} (h : Quiet cfg ex st)
    (h1 : st'.sessions = st.sessions) (h2 : st'.awaiting = st.awaiting) (h3 : st'.alive = st.alive)
    (h4 : st'.exits = st.exits) (h5 : st.next ≤ st'.next) (h6 : st'.contents = st.contents)
    (h7 : st'.finished = st.finished) (h8 : st'.pending = st.pending)
    (h9 : st'.running = st.running) (h10 : st'.asked = st.asked) (h11 : st'.started = st.started)
    (h12 : st'.begun = st.begun)
    (h13 : ∀ s, outcomes s st' = outcomes s st) : Quiet cfg ex st' := by
  constructor
  · rw [h1]; exact h.nodup
  · rw [h2]; exact h.aNodup
  · rw [h2]; exact h.noEarly
  · rw [h1]; exact h.status
  · rw [h1, h3]; exact h.alive
  · rw [h1, h4]; exact h.sExit
  · rw [h2, h4]; exact h.aExit
  · rw [h1]; exact fun x hx => ⟨Nat.lt_of_lt_of_le (h.bS x hx).1 h5, Nat.lt_of_lt_of_le (h.bS x hx).2 h5⟩
  · rw [h1, h2]; exact h.started
  · rw [h1, h2]; exact h.begunA
  · rw [h1, h2]; exact h.idle
  · rw [h1, h2]; exact h.ids
  · rw [h2]; exact h.idInj
  · rw [h2]; intro a ha hf
    have := h.prog a ha hf
    unfold Prog at this ⊢
    rw [h6, h7, h8]; exact this
  · rw [h2, h6]; exact h.cont
  · rw [h2, h7]; exact h.fin
  · rw [h2, h8]; exact h.pend
  · rw [h2, h9]; exact h.flows
  · rw [h2, h9]; exact h.run
  · rw [h9]; exact h.runNodup
  · rw [h9]; exact fun r hr => Nat.lt_of_lt_of_le (h.runB r hr) h5
  · rw [h2]; unfold AllAsked; rw [h10]; exact h.asked
  · rw [h2]; unfold AllStarted; rw [h11]; exact h.flowStarted
  · intro s o ho
    rw [h13] at ho
    have := h.over s o ho
    rw [h1, h2]; unfold AllAsked AllStarted; rw [h10, h11]; exact this
  · rw [h12]; intro b hb
    rw [h1, h2, h13]; exact h.begun b hb
  · rw [h12]; exact fun b hb => Nat.lt_of_lt_of_le (h.begunB b hb) h5
  · rw [h2]; exact fun b hb => Nat.lt_of_lt_of_le (h.aB b hb) h5
  · intro s hs; rw [h13] at hs; exact Nat.lt_of_lt_of_le (h.oB s hs) h5

theorem Quiet.noEntry {cfg : Cfg} {st : State α κ} (h : Quiet cfg none st) {x : Scoped}
    (hxm : x ∈ st.sessions) (hx : x.status = .ongoing) : ∀ b ∈ st.awaiting, b.sid ≠ x.sid := by
  intro b hb e
  cases hf : b.flows with
  | none =>
    obtain ⟨y, hy, e1, _, e3⟩ := h.idle b hb hf
    have := eq_of_nodup_map _ h.nodup hy hxm (e1.trans e)
    subst this
    rw [hx] at e3; exact e3
  | some fs => exact h.begunA b hb (by rw [hf]; simp) x hxm e.symm

theorem Quiet.noOutcome {cfg : Cfg} {ex : Option Ent} {st : State α κ} (h : Quiet cfg ex st)
    {x : Scoped} (hxm : x ∈ st.sessions) : outcomes x.sid st = [] := by
  cases ho : outcomes x.sid st with
  | nil => rfl
  | cons o os => exact absurd rfl ((h.over x.sid o (by rw [ho]; simp)).2.1 x hxm)

/-- The start of a cleanup whose id is the session. -/
theorem start_own (cfg : Cfg) (hn : cfg.nodes.Nodup) (st : State α κ) (h : Quiet cfg none st)
    (l1 l2 : List Scoped) (x : Scoped) (hl : st.sessions = l1 ++ x :: l2)
    (hx : x.status = .ongoing) (s' : Status) (hs' : s'.Ended) (c : Cleanup) (status : Finish κ)
    (now : List (Ent × Ent)) (he : status ≠ .earlyCleanup) (hid : c.id = x.sid) :
    Quiet cfg none (cleanupEntire cfg c status now [x.sid]
      { st with sessions := l1 ++ { x with status := s' } :: l2 }) := by
  have hxm : x ∈ st.sessions := by rw [hl]; simp
  refine start_quiet cfg hn st h l1 l2 x hl hx s' hs' c status now he (Or.inl hid) ?_
    (h.noOutcome hxm)
  intro b hb hf e
  rcases h.ids b hb hf with e1 | ⟨_, e2⟩
  · exact h.noEntry hxm hx b hb (e1.symm.trans (e.trans hid))
  · exact e2 x hxm (hid.symm.trans e.symm)

theorem transition_none (p : Scoped → Bool) (f : Status → Status × Bool) :
    ∀ l : List Scoped, (∀ x ∈ l, p x = true → f x.status = (x.status, false)) →
      transition p f l = (l, []) := by
  intro l h
  unfold transition
  refine Prod.ext ?_ ?_
  · show List.map _ l = l
    conv => rhs; rw [← List.map_id l]
    apply List.map_congr_left
    intro x hx
    by_cases hp : p x = true
    · rw [if_pos hp, h x hx hp]; rfl
    · rw [if_neg hp]; rfl
  · show List.map _ (List.filter _ l) = []
    rw [List.map_eq_nil_iff, List.filter_eq_nil_iff]
    intro x hx
    by_cases hp : p x = true
    · rw [h x hx hp]; simp
    · simp [hp]

theorem transition_append (p : Scoped → Bool) (f : Status → Status × Bool) (a b : List Scoped) :
    transition p f (a ++ b) =
      ((transition p f a).1 ++ (transition p f b).1, (transition p f a).2 ++ (transition p f b).2) := by
  simp [transition]

theorem cancelled_of_ended {s : Status} (h : s.Ended) : s.toCancelled = (s, false) := by
  cases s <;> first | rfl | cases h

theorem split_filter {β : Type} (p : β → Bool) {l : List β} {x : β} (hx : x ∈ l) (hp : p x = true)
    (hc : (l.filter p).length ≤ 1) :
    ∃ l1 l2, l = l1 ++ x :: l2 ∧ (∀ y ∈ l1, p y = false) ∧ (∀ y ∈ l2, p y = false) := by
  obtain ⟨l1, l2, rfl⟩ := List.append_of_mem hx
  refine ⟨l1, l2, rfl, ?_, ?_⟩
  all_goals
    intro y hy
    cases hpy : p y with
    | false => rfl
    | true =>
      exfalso
      rw [List.filter_append, List.filter_cons_of_pos hp, List.length_append, List.length_cons] at hc
      have : 0 < (List.filter p _).length := List.length_pos_of_mem (List.mem_filter.mpr ⟨hy, hpy⟩)
      omega

theorem cancelOne_quiet (cfg : Cfg) (hn : cfg.nodes.Nodup) (st : State α κ)
    (h : Quiet cfg none st) (session : Ent) (k : κ) (now : List (Ent × Ent))
    (hc : (st.sessions.filter (fun p => p.sid == session || p.parent == session)).length ≤ 1) :
    Quiet cfg none (cancelOne cfg session k now st) := by
  unfold cancelOne
  by_cases hex : ∃ x ∈ st.sessions, (x.sid == session || x.parent == session) = true ∧ x.status = .ongoing
  · obtain ⟨x, hxm, hp, hx⟩ := hex
    obtain ⟨l1, l2, hl, n1, n2⟩ := split_filter _ hxm hp hc
    have ht : transition (fun p => p.sid == session || p.parent == session) Status.toCancelled
        st.sessions = (l1 ++ { x with status := .cancelled } :: l2, [x.sid]) := by
      rw [hl, transition_append, transition_none _ _ l1 (fun y hy hpy => by
        rw [n1 y hy] at hpy; cases hpy)]
      have : x :: l2 = [x] ++ l2 := rfl
      rw [this, transition_append, transition_none _ _ l2 (fun y hy hpy => by
        rw [n2 y hy] at hpy; cases hpy)]
      simp only [transition, List.map_cons, List.map_nil, List.filter_cons, hp, hx, if_true,
        Status.toCancelled, Bool.and_self, List.filter_nil, List.nil_append, List.append_nil]
      rfl
    rw [ht]
    by_cases hs : x.sid = session
    · exact start_own cfg hn st h l1 l2 x hl hx .cancelled trivial _ _ now (by simp) hs.symm
    · have hpar : x.parent = session := by
        simp only [Bool.or_eq_true, beq_iff_eq] at hp
        exact hp.resolve_left hs
      have huniq : ∀ y ∈ st.sessions, (y.sid = session ∨ y.parent = session) → y = x := by
        intro y hy e
        have hpy : (y.sid == session || y.parent == session) = true := by simpa using e
        rw [hl] at hy
        simp only [List.mem_append, List.mem_cons] at hy
        rcases hy with hy | rfl | hy
        · rw [n1 y hy] at hpy; cases hpy
        · rfl
        · rw [n2 y hy] at hpy; cases hpy
      refine start_quiet cfg hn st h l1 l2 x hl hx .cancelled trivial _ _ now (by simp)
        (Or.inr ⟨hpar.symm, ?_⟩) ?_ (h.noOutcome hxm)
      · intro y hy e
        have := huniq y hy (Or.inl e)
        subst this; exact hs e
      · intro b hb hf e
        obtain ⟨y, hy, e1, e2, e3⟩ := h.idle b hb hf
        have hyx : y = x := by
          apply huniq y hy
          rcases h.ids b hb hf with e4 | ⟨e4, _⟩
          · exact Or.inl (e1.trans (e4.symm.trans e))
          · exact Or.inr (e2.trans (e4.symm.trans e))
        subst hyx
        rw [hx] at e3; exact e3
  · rw [transition_none]
    · exact h
    · intro x hxm hp
      rcases h.status x hxm with hx | hx
      · exact absurd ⟨x, hxm, hp, hx⟩ hex
      · exact cancelled_of_ended hx

theorem cleanupEntire_sessions (cfg : Cfg) (c : Cleanup) (status : Finish κ)
    (now : List (Ent × Ent)) : ∀ (l : List Ent) (st : State α κ),
      (cleanupEntire cfg c status now l st).sessions = st.sessions := by
  intro l
  induction l with
  | nil => intro st; rfl
  | cons s ss ih =>
    intro st
    simp only [cleanupEntire]
    split
    · rfl
    · rename_i st' e
      rw [ih]
      unfold cleanOne at e
      split at e
      · cases e
      · dsimp only at e
        split at e
        · injection e with e; rw [← e]
        · injection e with e; rw [← e, (cleanNodes_frame _ _ _ _ _ _).sessions]

theorem cancelOne_names (cfg : Cfg) (session : Ent) (k : κ) (now : List (Ent × Ent))
    (st : State α κ) :
    (cancelOne cfg session k now st).sessions.map (fun x => (x.sid, x.parent)) =
      st.sessions.map (fun x => (x.sid, x.parent)) := by
  unfold cancelOne
  rw [cleanupEntire_sessions]
  simp only [transition, List.map_map]
  apply List.map_congr_left
  intro x _
  simp only [Function.comp]
  split <;> rfl

theorem count_names (session : Ent) (l l' : List Scoped)
    (h : l'.map (fun x => (x.sid, x.parent)) = l.map (fun x => (x.sid, x.parent))) :
    (l'.filter (fun p => p.sid == session || p.parent == session)).length =
      (l.filter (fun p => p.sid == session || p.parent == session)).length := by
  have key : ∀ l : List Scoped, (l.filter (fun p => p.sid == session || p.parent == session)).length =
      ((l.map (fun x => (x.sid, x.parent))).filter (fun q => q.1 == session || q.2 == session)).length := by
    intro l
    rw [List.filter_map, List.length_map]
    rfl
  rw [key l', key l, h]

theorem cancelAll_quiet (cfg : Cfg) (hn : cfg.nodes.Nodup) (k : κ) (now : List (Ent × Ent)) :
    ∀ (l : List Ent) (st : State α κ), Quiet cfg none st →
      (∀ session, (st.sessions.filter
        (fun p => p.sid == session || p.parent == session)).length ≤ 1) →
      Quiet cfg none (cancelAll cfg k now l st) := by
  intro l
  induction l with
  | nil => intro st h _; exact h
  | cons s ss ih =>
    intro st h hc
    simp only [cancelAll]
    refine ih _ (cancelOne_quiet cfg hn st h s k now (hc s)) ?_
    intro session
    rw [count_names session _ _ (cancelOne_names cfg s k now st)]
    exact hc session

end Verif.Scope
