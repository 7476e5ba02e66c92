import Verif.Server.Steps
/-
C118: each run request is answered with what its own workflow gave. C119: workflows that are made
for requests are removed.
-/
namespace Verif.Server

variable {D V : Type}

/-- **C118** For every server and every sequence of events: a request that has been answered has
been given the error of its own diagram, or how the one workflow ended that was made for it with
its own diagram and its own input, or 500 after the app has gone down. -/
theorem C118_own_answer (build : D → Build V) {s : Server D V} (hs : Reachable build s) {c : Nat}
    {d : D} {i : V} {r : Resp V} (h : Answered s c d i r) : RightAnswer build s c d i r := by
  have hi := hs.inv
  rcases hi.ans c _ r h rfl with ⟨e, h1, h2⟩ | ⟨w, f, o, h1, ⟨h2, h3, h4⟩, h5, h6, h7⟩ | h1
  · exact .inl ⟨e, h1, h2⟩
  · refine .inr (.inl ⟨w, o, ⟨f, h1, h2, h3, h4⟩, ⟨f, h1, h5, h6⟩, ?_, ?_⟩)
    · rintro w' d' i' ⟨f', g1, g2, _⟩
      exact hi.single w' f' w f g1 h1 (g2.trans h2.symm)
    · rw [h7]; cases o <;> rfl
  · exact .inr (.inr h1)

/-- **C118** An answer is final: no later event changes it. -/
theorem C118_final (build : D → Build V) {s : Server D V} (hs : Reachable build s) {c : Nat}
    {d : D} {i : V} {r : Resp V} (h : Answered s c d i r) (es : List (Ev D V)) :
    Answered (run build s es) c d i r := by
  have hi := hs.inv
  clear hs
  induction es generalizing s with
  | nil => exact h
  | cons e es ih =>
    refine ih ?_ (hi.step e)
    obtain ⟨⟨d', i', p'⟩, h1, h2, h3, h4⟩ := step_client hi e h
    simp only at h2 h3 h4
    subst h2 h3
    cases h4 with
    | same => exact h1
    | left _ _ hr => exact absurd rfl (hr r)

/-- **C118** Requests are started in the order in which they were put into the channel, each of
them once. -/
theorem C118_order (build : D → Build V) {s : Server D V} (hs : Reachable build s) :
    s.started <+: s.accepted ∧ s.accepted.Nodup ∧
      (s.up = true → s.accepted = s.started ++ s.inbox) :=
  ⟨hs.inv.starts, hs.inv.nodup, hs.inv.order⟩

theorem step_accepted (build : D → Build V) (s : Server D V) (e : Ev D V) :
    s.accepted <+: (step build s e).accepted := by
  have stay : ∀ s' : Server D V, s'.accepted = s.accepted → s.accepted <+: s'.accepted := by
    intro s' h; rw [h]; exact List.prefix_refl _
  cases e <;> simp only [step, execute] <;>
    repeat' (first | exact stay _ rfl | exact ⟨[_], rfl⟩ | split)

theorem run_accepted (build : D → Build V) (es : List (Ev D V)) (s : Server D V) :
    s.accepted <+: (run build s es).accepted := by
  induction es generalizing s with
  | nil => exact List.prefix_refl _
  | cons e es ih => exact (step_accepted build s e).trans (ih _)

theorem step_started (build : D → Build V) {s : Server D V} (h : Inv build s) (e : Ev D V)
    (hup : (step build s e).up = true) :
    min (s.started.length + executes [e]) s.accepted.length ≤ (step build s e).started.length := by
  have hle := h.starts.length_le
  have stay : ∀ s' : Server D V, s'.started = s.started → ∀ n, n = 0 →
      min (s.started.length + n) s.accepted.length ≤ s'.started.length := by
    intro s' h n hn; rw [h]; omega
  cases e with
  | execute =>
    simp only [step, executes]
    rw [if_pos (step_up hup)]
    cases hin : s.inbox with
    | nil =>
      have := h.order (step_up hup)
      rw [hin, List.append_nil] at this
      simp only [Server.execute, hin, this]; omega
    | cons c rest =>
      obtain ⟨k0, hk0, hph⟩ := h.inboxed c (by simp [hin])
      simp only [Server.execute, hin, hk0]
      have key : ∀ s' : Server D V, s'.started = s.started ++ [c] →
          min (s.started.length + (0 + 1)) s.accepted.length ≤ s'.started.length := by
        intro s' h; rw [h, List.length_append, List.length_singleton]; omega
      repeat' (first | exact key _ rfl | split)
  | _ => simp only [step] <;> repeat' (first | exact stay _ rfl _ rfl | split)

theorem executes_cons (e : Ev D V) (es : List (Ev D V)) :
    executes (e :: es) = executes [e] + executes es := by
  cases e <;> simp [executes]; omega

theorem run_started (build : D → Build V) (es : List (Ev D V)) {s : Server D V} (h : Inv build s)
    (hup : (run build s es).up = true) :
    min (s.started.length + executes es) s.accepted.length ≤ (run build s es).started.length := by
  induction es generalizing s with
  | nil => simp only [executes, run, List.foldl_nil]; omega
  | cons e es ih =>
    have h1 := ih (h.step e) hup
    have h2 := step_started build h e (run_up hup)
    have h3 := (step_accepted build s e).length_le
    rw [executes_cons]
    change _ ≤ (run build (step build s e) es).started.length
    omega

/-- **C118** A request in the channel is not passed over: once `execute_requests` has run as often
as there are requests before it and once more, its workflow has been started, whatever else
happens meanwhile. -/
theorem C118_turn (build : D → Build V) {s : Server D V} (hs : Reachable build s) {k c : Nat}
    (hk : s.inbox[k]? = some c) (es : List (Ev D V)) (hn : k < executes es)
    (hup : (run build s es).up = true) :
    c ∈ (run build s es).started ∧
      ∀ x, (run build s es).clients c = some x → x.phase ≠ .sending ∧ x.phase ≠ .queued := by
  have hi := hs.inv
  have hi' := hi.run es
  have h1 := run_started build es hi hup
  have hord := hi.order (run_up hup)
  have hpre := run_accepted build es s
  have hkl : k < s.inbox.length := by
    rcases List.getElem?_eq_some_iff.mp hk with ⟨h, _⟩; exact h
  have hlen : s.started.length + k < (run build s es).started.length := by
    have : s.accepted.length = s.started.length + s.inbox.length := by
      rw [hord, List.length_append]
    omega
  have hacc : s.accepted[s.started.length + k]? = some c := by
    rw [hord, List.getElem?_append_right (by omega)]
    simpa using hk
  have hacc' : (run build s es).accepted[s.started.length + k]? = some c := by
    obtain ⟨t, ht⟩ := hpre
    rw [← ht, List.getElem?_append_left]
    · exact hacc
    · rcases List.getElem?_eq_some_iff.mp hacc with ⟨h, _⟩; exact h
  have hst : (run build s es).started[s.started.length + k]? = some c := by
    obtain ⟨t, ht⟩ := hi'.starts
    rw [← ht, List.getElem?_append_left hlen] at hacc'
    exact hacc'
  have hmem : c ∈ (run build s es).started := List.mem_of_getElem? hst
  refine ⟨hmem, ?_⟩
  intro x hx
  constructor
  · obtain ⟨x', g1, g2⟩ := hi'.acc c (List.mem_of_getElem? hacc')
    rw [hx] at g1; cases g1; exact g2
  · intro hq
    have hin := (hi'.queued c x hx hq).2
    have hnd := hi'.nodup
    rw [hi'.order hup, List.nodup_append] at hnd
    exact hnd.2.2 c hmem c hin rfl

/-- **C118** When the workflow of a request has ended, its handler can go on to the answer without
any other request: it is polled, the despawn channel is emptied, it gets room there. -/
theorem C118_ready (build : D → Build V) {s : Server D V} {c w : Nat} {d : D} {i : V} {o : Outcome V}
    (ha : s.clients c = some ⟨d, i, .awaiting w⟩) (he : Ended s w o) :
    ∃ r, Answered (run build s [.deliver c, .sweep, .release c]) c d i r ∧
      r = match o with
        | .available v => .ok v
        | .cancelled x => .cancelled x
        | .disposed => .internal := by
  obtain ⟨f, h1, _, h3⟩ := he
  refine ⟨respond o, ?_, by cases o <;> rfl⟩
  cases hup : s.up <;>
    simp [Answered, run, step, ha, h1, h3, Server.setPhase, upd, hup, capacity]

/-- Once the app is down, every workflow has an end: its promise is disposed. -/
def Settled (s : Server D V) : Prop :=
  s.up = false → ∀ w f, s.workflows w = some f → f.outcome.isSome = true

theorem Settled.step {build : D → Build V} {s : Server D V} (h : Inv build s) (hs : Settled s)
    (e : Ev D V) : Settled (step build s e) := by
  intro hd w f hf
  have stay : ∀ s' : Server D V, s'.workflows w = some f → s'.up = false →
      s'.workflows w = s.workflows w → s'.up = s.up → f.outcome.isSome = true := by
    intro s' h1 h2 h3 h4; exact hs (h4 ▸ h2) w f (h3 ▸ h1)
  cases e with
  | execute =>
    simp only [Server.step] at hf hd
    by_cases hu : s.up = true
    · rw [if_pos hu] at hf hd
      cases hin : s.inbox with
      | nil => simp only [Server.execute, hin, hu] at hd; cases hd
      | cons c' rest =>
        obtain ⟨k0, hk0, _⟩ := h.inboxed c' (by simp [hin])
        simp only [Server.execute, hin, hk0] at hf hd
        cases hb : build k0.diagram with
        | panic =>
          simp only [hb, Server.crash] at hf
          cases hw : s.workflows w with
          | none => simp [hw] at hf
          | some f0 =>
            simp only [hw, Option.map_some, Option.some.injEq] at hf
            subst hf
            cases f0.outcome <;> rfl
        | err x =>
          simp only [hb] at hd
          split at hd <;> simp [Server.setPhase, Server.spawn, hu] at hd
        | ok =>
          simp only [hb] at hd
          split at hd <;> simp [Server.setPhase, Server.spawn, hu] at hd
    · rw [if_neg hu] at hf hd; exact hs hd w f hf
  | settle w' o =>
    simp only [Server.step] at hf hd
    cases hw : s.workflows w' with
    | none => simp only [hw] at hf hd; exact hs hd w f hf
    | some f0 =>
      simp only [hw] at hf hd
      split at hf
      · rename_i hc
        rw [if_pos hc] at hd
        simp only [upd] at hf
        split at hf
        · cases hf; rfl
        · exact hs hd w f hf
      · rename_i hc; rw [if_neg hc] at hd; exact hs hd w f hf
  | sweep =>
    simp only [Server.step] at hf hd
    split at hf
    · rename_i hu; rw [if_pos hu, ] at hd; simp [hu] at hd
    · rename_i hu; rw [if_neg hu] at hd; exact hs hd w f hf
  | arrive d i => exact stay _ hf hd rfl rfl
  | accept c =>
    refine stay _ hf hd ?_ ?_ <;> simp only [Server.step] <;> repeat' (first | rfl | split)
  | deliver c =>
    refine stay _ hf hd ?_ ?_ <;> simp only [Server.step] <;> repeat' (first | rfl | split)
  | release c =>
    refine stay _ hf hd ?_ ?_ <;> simp only [Server.step] <;> repeat' (first | rfl | split)
  | leave c =>
    refine stay _ hf hd ?_ ?_ <;> simp only [Server.step] <;> repeat' (first | rfl | split)
  | tick => exact hs hd w f hf

theorem Reachable.settled {build : D → Build V} {s : Server D V} (h : Reachable build s) :
    Settled s := by
  obtain ⟨es, rfl⟩ := h
  suffices ∀ (es : List (Ev D V)) (s : Server D V), Inv build s → Settled s →
      Settled (run build s es) from this es initial (inv_initial build) (by
        intro _ w f hf; cases hf)
  intro es
  induction es with
  | nil => intro s _ h; exact h
  | cons e es ih => intro s h1 h2; exact ih _ (h1.step e) (h2.step h1 e)

/-- **C118** A server that is down leaves no client waiting: whoever has not gone away is answered
when its handler is polled. -/
theorem C118_down_answers (build : D → Build V) {s : Server D V} (hs : Reachable build s)
    (hd : s.up = false) {c : Nat} {k : Client D V} (hk : s.clients c = some k)
    (hg : k.phase ≠ .gone) :
    ∃ r, Answered (run build s [.accept c, .deliver c, .release c]) c k.diagram k.input r := by
  have hi := hs.inv
  obtain ⟨d, i, p⟩ := k
  cases p with
  | sending =>
    refine ⟨.internal, ?_⟩
    simp [Answered, run, step, hk, hd, Server.setPhase, upd]
  | queued => have := (hi.queued c _ hk rfl).1; rw [hd] at this; cases this
  | awaiting w =>
    obtain ⟨f, g1, _, _, _⟩ := hi.waits c _ w hk (.inl rfl)
    obtain ⟨o, ho⟩ := Option.isSome_iff_exists.mp (hs.settled hd w f g1)
    refine ⟨respond o, ?_⟩
    simp [Answered, run, step, hk, hd, g1, ho, Server.setPhase, upd]
  | releasing w r =>
    refine ⟨r, ?_⟩
    simp [Answered, run, step, hk, hd, Server.setPhase, upd]
  | answered r =>
    refine ⟨r, ?_⟩
    simp [Answered, run, step, hk]
  | gone => exact absurd rfl hg

/-- What C118 leaves open, **violated**: there is no limit to how long a client waits. The timeout
of the options is not read: while the workflow has not ended, the client stays and the app runs,
the handler waits, however much time passes. -/
theorem C118_timeout_violated (build : D → Build V) {s : Server D V} (hs : Reachable build s)
    {c w : Nat} (ha : Awaits s c w) (hn : ∀ o, ¬ Ended s w o) (es : List (Ev D V))
    (hl : .leave c ∉ es) (hse : ∀ o, .settle w o ∉ es) (hup : (run build s es).up = true) :
    Awaits (run build s es) c w := by
  obtain ⟨k, hk, hp⟩ := ha
  have hi := hs.inv
  obtain ⟨f, g1, g2, g3, g4⟩ := hi.waits c k w hk (.inl hp)
  clear g2 g4
  have hno : f.outcome = none := by
    cases ho : f.outcome with
    | none => rfl
    | some o => exact absurd ⟨f, g1, g3, ho⟩ (hn o)
  clear hs hn g3
  induction es generalizing s k f with
  | nil => exact ⟨k, hk, hp⟩
  | cons e es ih =>
    simp only [List.mem_cons, not_or] at hl hse
    have hu : (step build s e).up = true := run_up hup
    obtain ⟨k', m1, _, _, m⟩ := step_client hi e hk
    obtain ⟨f', i1, _, _, _, _, i6, _⟩ := step_workflow hi e g1 hu
    have hno' : f'.outcome = none := by
      rcases i6 hno with h | ⟨o, h⟩
      · exact h
      · exact absurd h.symm (hse o).1
    have hp' : k'.phase = .awaiting w := by
      rw [hp] at m
      generalize hq : k'.phase = q at m
      cases m with
      | same => rfl
      | delivered _ o ho => rw [g1] at ho; simp [hno] at ho
      | left _ he _ => exact absurd he.symm hl.1
    exact ih hl.2 (fun o => (hse o).2) hup k' m1 hp' (hi.step e) f' i1 hno'

/-- What C118 leaves open, **violated**: a diagram whose node builder panics takes the app down,
and with it the request of another client that is in the channel. -/
theorem C118_panic_violated (build : D → Build V) (bad d : D) (x i : V)
    (hb : build bad = .panic) :
    ∃ es, es = [.arrive bad x, .arrive d i, .accept 0, .accept 1, .execute] ∧
      Answered (run build initial es) 1 d i .internal := by
  refine ⟨_, rfl, ?_⟩
  simp [Answered, run, step, execute, crash, initial, upd, Server.setPhase, capacity, hb]

/-- What C118 leaves open, **violated**: once the app is down no request that comes later is ever
answered with anything but 500. -/
theorem C118_down_violated (build : D → Build V) {s : Server D V} (hs : Reachable build s)
    (hd : s.up = false) {c : Nat} (hc : s.arrived ≤ c) (es : List (Ev D V)) {d : D} {i : V}
    {r : Resp V} (h : Answered (run build s es) c d i r) : r = .internal := by
  have key : ∀ (es : List (Ev D V)) (s : Server D V), Inv build s → s.up = false →
      (∀ k, s.clients c = some k →
        k.phase = .sending ∨ k.phase = .gone ∨ k.phase = .answered .internal) →
      ∀ k, (run build s es).clients c = some k →
        k.phase = .sending ∨ k.phase = .gone ∨ k.phase = .answered .internal := by
    intro es
    induction es with
    | nil => intro s _ _ h; exact h
    | cons e es ih =>
      intro s hi hd h
      have hd' : (step build s e).up = false := by
        cases hu : (step build s e).up with
        | false => rfl
        | true => rw [step_up hu] at hd; cases hd
      refine ih _ (hi.step e) hd' ?_
      intro k' hk'
      cases hcl : s.clients c with
      | some k =>
        obtain ⟨k'', m1, _, _, m⟩ := step_client hi e hcl
        rw [hk'] at m1; cases m1
        have hp := h k hcl
        generalize k.phase = p at m hp
        generalize hq : k'.phase = q at m
        cases m with
        | same => exact hp
        | accepted hu => rw [hd] at hu; cases hu
        | down => exact .inr (.inr rfl)
        | started => simp at hp
        | refused => simp at hp
        | delivered => simp at hp
        | released => simp at hp
        | left => exact .inr (.inl rfl)
      | none =>
        cases e with
        | arrive d i =>
          simp only [step, upd] at hk'
          split at hk'
          · cases hk'; exact .inl rfl
          · rw [hcl] at hk'; cases hk'
        | execute => simp only [step, hd] at hk'; rw [if_neg (by simp), hcl] at hk'; cases hk'
        | accept c' =>
          simp only [step] at hk'
          by_cases hcc : c = c'
          · subst hcc; simp [hcl] at hk'
          · repeat' (first
              | (rw [hcl] at hk'; cases hk'; done)
              | (rw [setPhase_at, if_neg hcc, hcl] at hk'; cases hk'; done)
              | split at hk')
        | settle w o =>
          simp only [step] at hk'
          repeat' (first | (rw [hcl] at hk'; cases hk'; done) | split at hk')
        | deliver c' =>
          simp only [step] at hk'
          by_cases hcc : c = c'
          · subst hcc; simp [hcl] at hk'
          · repeat' (first
              | (rw [hcl] at hk'; cases hk'; done)
              | (rw [setPhase_at, if_neg hcc, hcl] at hk'; cases hk'; done)
              | split at hk')
        | release c' =>
          simp only [step] at hk'
          by_cases hcc : c = c'
          · subst hcc; simp [hcl] at hk'
          · repeat' (first
              | (rw [hcl] at hk'; cases hk'; done)
              | (rw [setPhase_at, if_neg hcc, hcl] at hk'; cases hk'; done)
              | split at hk')
        | sweep =>
          simp only [step] at hk'
          repeat' (first | (rw [hcl] at hk'; cases hk'; done) | split at hk')
        | leave c' =>
          simp only [step] at hk'
          by_cases hcc : c = c'
          · subst hcc; simp [hcl] at hk'
          · repeat' (first
              | (rw [hcl] at hk'; cases hk'; done)
              | (rw [setPhase_at, if_neg hcc, hcl] at hk'; cases hk'; done)
              | split at hk')
        | tick => simp only [step, hcl] at hk'; cases hk'
  rcases key es s hs.inv hd (by intro k hk; rw [hs.inv.range c hc] at hk; cases hk) _ h with
    h' | h' | h' <;> cases h'
  rfl

/-- **C119**, partial. While the app runs, a workflow that is in the world is waited for by the
handler of its request, or has been given to `despawn_workflows`, or the client of its request has
gone away, or its diagram has an error. So without clients that go away and without erroneous
diagrams, once all requests are answered and the channel is empty, no workflow is left. Missing:
the last two causes, for which the workflow stays; see below. -/
theorem C119_removed_partial (build : D → Build V) {s : Server D V} (hs : Reachable build s)
    (hup : s.up = true) :
    (∀ w f, s.workflows w = some f → f.alive = true →
      w ∈ s.outbox ∨
      (∃ k, s.clients f.owner = some k ∧
        (k.phase = .awaiting w ∨ (∃ r, k.phase = .releasing w r) ∨ k.phase = .gone)) ∨
      ∃ x, build f.diagram = .err x)
    ∧ ((∀ c k, s.clients c = some k → ∃ r, k.phase = .answered r) →
        (∀ w f x, s.workflows w = some f → build f.diagram ≠ .err x) →
        ∀ w, ¬ Alive (step build s .sweep) w) := by
  have hl := hs.live hup
  constructor
  · intro w f hf ha
    rcases hl w f hf ha with h | ⟨_, h⟩ | ⟨k, h1, (h2 | h2) | h2⟩
    · exact .inl h
    · exact .inr (.inr h)
    · exact .inr (.inl ⟨k, h1, .inl h2⟩)
    · exact .inr (.inl ⟨k, h1, .inr (.inl h2)⟩)
    · exact .inr (.inl ⟨k, h1, .inr (.inr h2)⟩)
  · rintro hans herr w ⟨f', hf', ha'⟩
    simp only [step] at hf'
    rw [if_pos hup] at hf'
    cases hw : s.workflows w with
    | none => simp [hw] at hf'
    | some f =>
      simp only [hw, Option.map_some, Option.some.injEq] at hf'
      split at hf'
      · subst hf'; cases ha'
      · rename_i hno
        subst hf'
        rcases hl w f hw ha' with h | ⟨_, x, h⟩ | ⟨k, h1, h2⟩
        · simp [h] at hno
        · exact herr w f x hw h
        · obtain ⟨r, hr⟩ := hans _ k h1
          rcases h2 with h2 | h2 <;> simp [Holds, hr] at h2

/-- **C119** A workflow is not removed before it has ended and its request has been answered. -/
theorem C119_not_early (build : D → Build V) {s : Server D V} (hs : Reachable build s)
    (hup : s.up = true) {w : Nat} {f : Workflow D V} (hw : s.workflows w = some f)
    (hna : ¬ Alive s w) :
    (∃ o, Ended s w o) ∧ ∃ d i r, Answered s f.owner d i r := by
  have ha : f.alive = false := by
    cases h : f.alive with
    | false => rfl
    | true => exact absurd ⟨f, hw, h⟩ hna
  obtain ⟨h1, h2, ⟨d, i, p⟩, r, h3, h4⟩ := hs.inv.dead w f hw hup ha
  obtain ⟨o, ho⟩ := Option.isSome_iff_exists.mp h2
  simp only at h4; subst h4
  exact ⟨⟨o, f, hw, h1, ho⟩, d, i, r, h3⟩

theorem stays (build : D → Build V) (P : Server D V → Prop)
    (hP : ∀ s e, Inv build s → P s → (step build s e).up = true → P (step build s e))
    {w : Nat} (hout : ∀ s, Inv build s → P s → w ∉ s.outbox)
    (es : List (Ev D V)) {s : Server D V} (hi : Inv build s) (hp : P s) (ha : Alive s w)
    (hup : (run build s es).up = true) : Alive (run build s es) w := by
  induction es generalizing s with
  | nil => exact ha
  | cons e es ih =>
    have hu : (step build s e).up = true := run_up hup
    obtain ⟨f, h1, h2⟩ := ha
    obtain ⟨f', i1, _, _, _, _, _, _, i8, _⟩ := step_workflow hi e h1 hu
    refine ih (hi.step e) (hP s e hi hp hu) ⟨f', i1, ?_⟩ hup
    rcases i8 h2 with h | h
    · exact h
    · exact absurd h (hout s hi hp)

/-- What C119 leaves open, **violated**: the workflow of a client that has gone away stays in the
world for as long as the app runs. -/
theorem C119_disconnect_violated (build : D → Build V) {s : Server D V} (hs : Reachable build s)
    {w c : Nat} {d : D} {i : V} (hm : MadeFor s w c d i) (ha : Alive s w)
    (hg : s.clients c = some ⟨d, i, .gone⟩) (es : List (Ev D V))
    (hup : (run build s es).up = true) : Alive (run build s es) w := by
  refine stays build (fun s => (∃ f, s.workflows w = some f ∧ f.owner = c) ∧
    ∃ k, s.clients c = some k ∧ k.phase = .gone) ?_ ?_ es hs.inv ?_ ha hup
  · rintro s e hi ⟨⟨f, h1, h2⟩, k, h3, h4⟩ hu
    obtain ⟨f', i1, i2, _⟩ := step_workflow hi e h1 hu
    obtain ⟨k', m1, _, _, m⟩ := step_client hi e h3
    refine ⟨⟨f', i1, i2.trans h2⟩, k', m1, ?_⟩
    rw [h4] at m
    generalize k'.phase = q at m
    cases m <;> rfl
  · rintro s hi ⟨⟨f, h1, h2⟩, k, h3, h4⟩ ho
    obtain ⟨f', o1, _, _, k', r, o5, o6⟩ := hi.out w ho
    rw [h1] at o1; cases o1
    rw [h2, h3] at o5; cases o5
    rw [h4] at o6; cases o6
  · obtain ⟨f, h1, h2, _⟩ := hm
    exact ⟨⟨f, h1, h2⟩, _, hg, rfl⟩

/-- What C119 leaves open, **violated**: what was spawned for a diagram that turned out to have an
error stays in the world for as long as the app runs. -/
theorem C119_refused_violated (build : D → Build V) {s : Server D V} (hs : Reachable build s)
    {w : Nat} {f : Workflow D V} (hw : s.workflows w = some f) (hc : f.complete = false)
    (ha : Alive s w) (es : List (Ev D V)) (hup : (run build s es).up = true) :
    Alive (run build s es) w := by
  refine stays build (fun s => ∃ f, s.workflows w = some f ∧ f.complete = false) ?_ ?_ es hs.inv
    ⟨f, hw, hc⟩ ha hup
  · rintro s e hi ⟨f, h1, h2⟩ hu
    obtain ⟨f', i1, _, _, _, i5, _⟩ := step_workflow hi e h1 hu
    exact ⟨f', i1, i5.trans h2⟩
  · rintro s hi ⟨f, h1, h2⟩ ho
    obtain ⟨f', o1, o2, _⟩ := hi.out w ho
    rw [h1] at o1; cases o1
    rw [h2] at o2; cases o2

end Verif.Server
