import Verif.Zenoh.NodesLemmas

/-!
C111: a zenoh subscription node has at most one subscription per session, it refuses another input
while it has one and only then, and passes on each sample once and in order; a cancellation ends it
(unless zenoh has closed the channel).

C112: a zenoh querier passes on each reply once and in order, and it ends when the replies end or
when it is cancelled.
-/
set_option linter.unusedSectionVars false

namespace Verif.Zenoh.Nodes

variable {I O C E : Type} (k : Kind I O C E)

/-! ### C111 -/

/-- There is never more than one subscription for a session. -/
theorem C111_one (vs : List (Ev I C E)) (s : Nat) :
    (liveRuns (Node.run k {} vs) s).length ≤ 1 := by
  have h := Inv.run (Inv.init (k := k)) vs
  have he : (liveRuns (Node.run k {} vs) s).length = cnt (Node.run k {} vs) s := by
    unfold liveRuns cnt
    rw [List.countP_eq_length_filter]
  rw [he]
  cases hd : (Node.run k {} vs).ended s with
  | false =>
    have := h.count s hd
    have := h.one s
    omega
  | true =>
    unfold cnt
    have : List.countP (fun r => decide (r.session = s) && r.phase.live)
        (Node.run k {} vs).runs = 0 := by
      rw [List.countP_eq_zero]
      intro r hr
      by_cases hs : r.session = s
      · rw [h.over s hd r hr hs]; simp [live_dropped]
      · simp [hs]
    omega

/-- An input makes a new run, which is refused exactly if a subscription of that session is there or
about to be cleared away; a refused one ends with the error `AlreadyActive` when it is polled. -/
theorem C111_answer (vs : List (Ev I C E)) (s : Nat)
    (hs : (Node.run k {} vs).ended s = false) :
    let w : Node I O C E := Node.run k {} vs
    let busy := ∃ r ∈ w.runs, r.session = s ∧ (r.phase.live = true ∨ r.phase.leaving = true)
    (¬ busy → (w.step k (.trigger s)).runs = w.runs ++ [{ session := s, phase := .opening none }]) ∧
    (busy → (w.step k (.trigger s)).runs = w.runs ++ [{ session := s, phase := .rejected }] ∧
      ∀ b, ((w.step k (.trigger s)).step k (.poll w.runs.length b)).runs =
        w.runs ++ [{ session := s, phase := .done .alreadyActive }]) := by
  intro w busy
  have h : Inv k w := Inv.run Inv.init vs
  have hb : busy ↔ w.active s ≠ 0 := by
    rw [← h.count s hs]
    constructor
    · rintro ⟨r, hr, h1, h2 | h2⟩
      · have : 0 < cnt w s := List.countP_pos_iff.2 ⟨r, hr, by simp [h1, h2]⟩
        omega
      · obtain ⟨i, hi⟩ := List.getElem?_of_mem hr
        have : 0 < pend w s := List.countP_pos_iff.2 ⟨_, h.wait i r hi h2, by simp [h1]⟩
        omega
    · intro hne
      by_cases h1 : cnt w s = 0
      · have : 0 < pend w s := by omega
        obtain ⟨x, hx, he⟩ := List.countP_pos_iff.1 this
        obtain ⟨r, h2, h3, h4⟩ := h.sent x hx
        have hr := List.mem_of_getElem? h2
        have he : x.2 = s := by simpa using he
        refine ⟨r, hr, h3.trans he, .inr ?_⟩
        rcases h4 with h4 | h4
        · exact h4
        · have := h.gone r hr h4
          rw [h3, he] at this
          exact absurd this (by rw [show w.ended s = false from hs]; decide)
      · obtain ⟨r, hr, he⟩ := List.countP_pos_iff.1 (Nat.pos_of_ne_zero h1)
        simp only [Bool.and_eq_true, decide_eq_true_eq] at he
        exact ⟨r, hr, he.1, .inl he.2⟩
  have hs' : ¬ w.ended s = true := by rw [show w.ended s = false from hs]; decide
  constructor
  · intro hn
    have ha : w.active s = 0 := by
      by_cases ha : w.active s = 0
      · exact ha
      · exact absurd (hb.2 ha) hn
    simp only [Node.step, Node.trigger]
    rw [if_neg hs', if_pos ha]
  · intro hn
    have ha := hb.1 hn
    have e : w.step k (.trigger s) =
        { w with runs := w.runs ++ [{ session := s, phase := .rejected }] } := by
      simp only [Node.step, Node.trigger]
      rw [if_neg hs', if_neg ha]
    rw [e]
    refine ⟨rfl, fun b => ?_⟩
    simp [Node.step, Node.poll, Node.setRun]

/-- Whatever happens, each sample that zenoh delivered to a run comes out once, in order: what has
come out is, item by item, a first part of what has arrived. -/
theorem C111_items (vs : List (Ev I C E)) : ∀ r ∈ (Node.run k {} vs).runs, PassedOn k r :=
  (Inv.run Inv.init vs).passed

/-- After a poll of a run with a subscription, everything that had arrived has come out; unless it
was cancelled and the cancellation was polled first. -/
theorem C111_all (w : Node I O C E) (i : Nat) (r : Run I O C E) (b : Bool)
    (hr : w.runs[i]? = some r) (hp : r.phase = .receiving ∨ r.phase = .opening (some (.ok ())))
    (ho : r.closed = false) (hin : PassedOn k r) (hb : b = false ∨ r.signals = []) :
    ∃ r', (w.step k (.poll i b)).runs[i]? = some r' ∧ r'.arrived = r.arrived ∧
      r'.outs = r.arrived.map k.item := by
  have hlt := (List.getElem?_eq_some_iff.1 hr).1
  have hwork : r.work k = some ({ r with
      phase := .receiving
      inbox := []
      outs := r.outs ++ r.inbox.map k.item }, none) := by
    unfold Run.work
    rcases hp with hp | hp
    · rw [hp]
      simp only
      rw [(loop_enough r _ (Nat.lt_succ_self _)).1 ho, hp]
    · rw [hp]
      simp only
      rw [(loop_enough { r with phase := .receiving } _ (Nat.lt_succ_self _)).1 ho]
  have hrace : r.race k b = some ({ r with
      phase := .receiving
      inbox := []
      outs := r.outs ++ r.inbox.map k.item }, r.signals.head?.map .ok) := by
    unfold Run.race
    rcases hb with hb | hb
    · subst hb; simp [hwork]
    · rw [hb]; simp [hwork, hb]
  obtain ⟨t, h1, h2⟩ := hin
  have hout : r.outs ++ r.inbox.map k.item = r.arrived.map k.item := by rw [h1, h2]; simp
  have key : ∃ r', (match r.race k b with
      | none => w.setRun i { r with phase := .stuck }
      | some (r, none) => w.setRun i r
      | some (r, some res) => w.over i r res).runs[i]? = some r' ∧ r'.arrived = r.arrived ∧
      r'.outs = r.arrived.map k.item := by
    rw [hrace]
    cases r.signals.head? with
    | none =>
      simp only [Option.map_none, Node.setRun]
      rw [List.getElem?_set_self hlt]
      exact ⟨_, rfl, rfl, hout⟩
    | some c =>
      simp only [Option.map_some, Node.over, Node.setRun]
      rw [List.getElem?_set_self hlt]
      exact ⟨_, rfl, rfl, hout⟩
  simp only [Node.step, Node.poll, hr]
  rcases hp with hp | hp <;> rw [hp] <;> exact key

/-- A run whose race is over ends with the same result when the commands in the channel have been
executed and it is polled. -/
theorem C111_ends (vs : List (Ev I C E)) (i : Nat) (r : Run I O C E) (res : Result C E) (b : Bool) :
    let w : Node I O C E := Node.run k {} vs
    w.runs[i]? = some r → r.phase = .clearing res false →
    ∃ r', (w.run k (List.replicate w.commands.length .command ++ [.poll i b])).runs[i]? = some r' ∧
      r'.phase = .done res ∧ r'.outs = r.outs := by
  intro w hr hp
  have h : Inv k w := Inv.run Inv.init vs
  -- the commands, one by one
  have hcmd : ∀ (n : Nat) (w : Node I O C E), Inv k w → w.commands.length = n →
      ∀ r, w.runs[i]? = some r → (r.phase = .clearing res false ∨ r.phase = .clearing res true) →
      ∃ r', (w.run k (List.replicate n .command)).runs[i]? = some r' ∧
        r'.phase = .clearing res true ∧ r'.outs = r.outs := by
    intro n
    induction n with
    | zero =>
      intro w h hn r hr hp
      rcases hp with hp | hp
      · have := h.wait i r hr (by rw [hp]; rfl)
        rw [List.length_eq_zero_iff.1 hn] at this
        cases this
      · exact ⟨r, hr, hp, rfl⟩
    | succ n ih =>
      intro w h hn r hr hp
      obtain ⟨x, rest, hc⟩ : ∃ x rest, w.commands = x :: rest := by
        cases hc : w.commands with
        | nil => rw [hc] at hn; cases hn
        | cons x rest => exact ⟨x, rest, rfl⟩
      have hstep : w.step k .command = { w with
          runs := w.runs.modify x.1 Run.cleared
          commands := rest
          active := fun y => if y = x.2 then 0 else w.active y } := by
        simp only [Node.step, hc]
      have hlen : (w.step k .command).commands.length = n := by
        rw [hstep]; rw [hc] at hn; simpa using hn
      have hr' : ∃ r', (w.step k .command).runs[i]? = some r' ∧
          (r'.phase = .clearing res false ∨ r'.phase = .clearing res true) ∧ r'.outs = r.outs := by
        rw [hstep]
        simp only [List.getElem?_modify, hr]
        by_cases hi : x.1 = i
        · refine ⟨r.cleared, by simp [hi], .inr ?_, ?_⟩
          · unfold Run.cleared
            rcases hp with hp | hp <;> rw [hp]
          · unfold Run.cleared
            rcases hp with hp | hp <;> rw [hp]
        · exact ⟨r, by simp [hi], hp, rfl⟩
      obtain ⟨r', h1, h2, h3⟩ := hr'
      obtain ⟨r'', h4, h5, h6⟩ := ih _ (h.step .command) hlen r' h1 h2
      exact ⟨r'', h4, h5, h6.trans h3⟩
  obtain ⟨r', h1, h2, h3⟩ := hcmd _ w h rfl r hr (.inl hp)
  have hlt := (List.getElem?_eq_some_iff.1 h1).1
  refine ⟨{ r' with phase := .done res }, ?_, rfl, h3⟩
  unfold Node.run at h1 hlt ⊢
  rw [List.foldl_append]
  simp only [List.foldl_cons, List.foldl_nil]
  generalize List.foldl (Node.step k) w (List.replicate w.commands.length Ev.command) = w' at *
  simp only [Node.step, Node.poll, h1, h2, Node.setRun]
  exact List.getElem?_set_self hlt

/-- A cancellation ends a run at its next poll, with the message of the first cancellation, if the
set-up has not failed and the channel of zenoh is not closed. The last is what is missing: see
`C111_hang_violated`. -/
theorem C111_cancel_partial (w : Node I O C E) (i : Nat) (r : Run I O C E) (b : Bool)
    (c : C) (cs : List C) (hr : w.runs[i]? = some r)
    (hp : r.phase = .receiving ∨ r.phase = .opening none ∨ r.phase = .opening (some (.ok ())))
    (ho : r.closed = false) (hc : r.signals = c :: cs) :
    ∃ r', (w.step k (.poll i b)).runs[i]? = some r' ∧ r'.phase = .clearing (.ok c) false := by
  have hlt := (List.getElem?_eq_some_iff.1 hr).1
  have hwork : ∃ r', r.work k = some (r', none) := by
    unfold Run.work
    rcases hp with hp | hp | hp
    · rw [hp]
      exact ⟨_, (loop_enough r _ (Nat.lt_succ_self _)).1 ho⟩
    · rw [hp]
      exact ⟨r, rfl⟩
    · rw [hp]
      exact ⟨_, (loop_enough { r with phase := .receiving } _ (Nat.lt_succ_self _)).1 ho⟩
  obtain ⟨r', hw⟩ := hwork
  have hrace : ∃ r'', r.race k b = some (r'', some (.ok c)) := by
    unfold Run.race
    cases b with
    | true => rw [hc]; exact ⟨_, rfl⟩
    | false => rw [hc]; simp [hw]
  obtain ⟨r'', hrace⟩ := hrace
  refine ⟨{ r'' with phase := .clearing (.ok c) false }, ?_, rfl⟩
  have key : (match r.race k b with
      | none => w.setRun i { r with phase := .stuck }
      | some (r, none) => w.setRun i r
      | some (r, some res) => w.over i r res).runs[i]? =
        some { r'' with phase := .clearing (.ok c) false } := by
    rw [hrace]
    simp only [Node.over, Node.setRun]
    exact List.getElem?_set_self hlt
  simp only [Node.step, Node.poll, hr]
  rcases hp with hp | hp | hp <;> rw [hp] <;> exact key

/-- What happens when zenoh closes the channel of a subscription: the poll does not return - the
loop does not end in any number of turns, and each turn sends an error - and then no cancellation
has an effect: the run stays there until its session ends, which takes a step of the executor that
is stuck in it, and all inputs are refused. -/
theorem C111_hang (hk : k.onClosed = none) (w : Node I O C E) (i : Nat) (r : Run I O C E)
    (b : Bool) (hr : w.runs[i]? = some r)
    (hp : r.phase = .receiving ∨ r.phase = .opening (some (.ok ()))) (ho : r.closed = true)
    (hb : b = false ∨ r.signals = []) :
    (∀ n, r.loop k n = none) ∧
    (w.step k (.poll i b)).runs[i]? = some { r with phase := .stuck } ∧
    ∀ vs : List (Ev I C E), Ev.cleanup r.session ∉ vs →
      ∃ r', ((w.step k (.poll i b)).run k vs).runs[i]? = some r' ∧ r'.phase = .stuck := by
  have hlt := (List.getElem?_eq_some_iff.1 hr).1
  have hwork : r.work k = none := by
    unfold Run.work
    rcases hp with hp | hp
    · rw [hp]; exact loop_closed hk _ _ ho
    · rw [hp]; exact loop_closed hk _ _ ho
  have hrace : r.race k b = none := by
    unfold Run.race
    rcases hb with hb | hb
    · subst hb; simp [hwork]
    · rw [hb]; simp [hwork]
  have key : (match r.race k b with
      | none => w.setRun i { r with phase := .stuck }
      | some (r, none) => w.setRun i r
      | some (r, some res) => w.over i r res).runs[i]? = some { r with phase := .stuck } := by
    rw [hrace]
    simp only [Node.setRun]
    exact List.getElem?_set_self hlt
  have hpoll : (w.step k (.poll i b)).runs[i]? = some { r with phase := .stuck } := by
    simp only [Node.step, Node.poll, hr]
    rcases hp with hp | hp <;> rw [hp] <;> exact key
  refine ⟨fun n => loop_closed hk n r ho, hpoll, fun vs hvs => ?_⟩
  have : ∀ (vs : List (Ev I C E)) (w : Node I O C E) (x : Run I O C E), Ev.cleanup r.session ∉ vs →
      w.runs[i]? = some x → x.phase = .stuck → x.session = r.session →
      ∃ r', (w.run k vs).runs[i]? = some r' ∧ r'.phase = .stuck := by
    intro vs
    induction vs with
    | nil => intro w x _ h1 h2 _; exact ⟨x, h1, h2⟩
    | cons v vs ih =>
      intro w x hv h1 h2 h3
      simp only [List.mem_cons, not_or] at hv
      suffices h : ∃ y, (w.step k v).runs[i]? = some y ∧ y.phase = .stuck ∧
          y.session = r.session by
        obtain ⟨y, h4, h5, h6⟩ := h
        exact ih _ y hv.2 h4 h5 h6
      have hlt := (List.getElem?_eq_some_iff.1 h1).1
      have hmod : ∀ j (f : Run I O C E → Run I O C E), (f x).phase = x.phase →
          (f x).session = x.session → ∃ y, (w.runs.modify j f)[i]? = some y ∧ y.phase = .stuck ∧
          y.session = r.session := by
        intro j f hf hf'
        rw [List.getElem?_modify, h1]
        by_cases hj : j = i
        · exact ⟨f x, by simp [hj], hf.trans h2, hf'.trans h3⟩
        · exact ⟨x, by simp [hj], h2, h3⟩
      cases v with
      | trigger s =>
        refine ⟨x, ?_, h2, h3⟩
        simp only [Node.step, Node.trigger]
        split
        · exact h1
        · split <;> (simp only; rw [List.getElem?_append_left hlt]; exact h1)
      | opened j res => exact hmod j _ (by simp [Run.qstep, h2]) (by simp [Run.qstep, h2])
      | item j y =>
        refine hmod j _ ?_ ?_ <;> (simp only [Run.qstep]; split <;> rfl)
      | close j => exact hmod j _ rfl rfl
      | cancel j c => exact hmod j _ rfl rfl
      | command =>
        simp only [Node.step]
        split
        · exact ⟨x, h1, h2, h3⟩
        · exact hmod _ _ (by simp [Run.cleared, h2]) (by simp [Run.cleared, h2])
      | cleanup s =>
        simp only [Node.step, List.getElem?_map, h1, Option.map_some]
        have : x.session ≠ s := by
          intro e
          rw [h3] at e
          exact hv.1 (by rw [e])
        exact ⟨x, by simp [this], h2, h3⟩
      | poll j b =>
        refine ⟨x, ?_, h2, h3⟩
        simp only [Node.step, Node.poll]
        by_cases hj : j = i
        · subst hj
          rw [h1]
          simp only [h2]
          exact h1
        · have hset : ∀ y : Run I O C E, (w.setRun j y).runs[i]? = some x := by
            intro y
            simp only [Node.setRun]
            rw [List.getElem?_set_ne hj]; exact h1
          have hover : ∀ (y : Run I O C E) res, (w.over j y res).runs[i]? = some x := by
            intro y res
            simp only [Node.over]
            exact hset _
          cases hy : w.runs[j]? with
          | none => exact h1
          | some y =>
            simp only
            split <;> first | exact hset _ | exact h1 | skip
            all_goals
              split <;> first | exact hset _ | exact hover _ _
  exact this vs _ _ hvs hpoll rfl rfl

/-- The subscription node, with numbers as samples that decode to themselves. -/
def sub : Kind Nat (Option Nat) String String :=
  { item := some, onClosed := none, closedItem := none }

/-- A cancellation does not always end a subscription: this one was cancelled after zenoh had
closed its channel. -/
theorem C111_hang_violated :
    ((Node.run sub {} [.trigger 0, .opened 0 (.ok ()), .close 0, .poll 0 false, .cancel 0 "stop",
      .poll 0 true, .poll 0 false]).runs.map fun r => (r.signals, r.phase matches .stuck)) =
    [(["stop"], true)] := by decide

/-- The hypotheses of the theorems are met by this node: two runs in one session, the second
refused; two samples; a cancellation; a third run after the first has ended. -/
example :
    let w := Node.run sub {} [.trigger 0, .trigger 0, .opened 0 (.ok ()), .item 0 7, .item 0 8,
      .poll 0 false, .poll 1 false, .item 0 9, .cancel 0 "stop", .poll 0 true, .command,
      .poll 0 false, .trigger 0]
    (w.runs.map fun r => r.outs) = [[some 7, some 8], [], []] ∧
    (w.runs.map fun r => r.phase matches .done (.ok "stop")) = [true, false, false] ∧
    (w.runs.map fun r => r.phase matches .done .alreadyActive) = [false, true, false] ∧
    (w.runs.map fun r => r.phase.live) = [false, false, true] := by decide

/-- For `C111_cancel_partial` and `C111_all`. -/
example :
    let w := Node.run sub {} [.trigger 0, .opened 0 (.ok ()), .item 0 7, .poll 0 false, .item 0 8,
      .cancel 0 "stop"]
    (w.runs.map fun r => (r.signals, r.arrived, r.closed)) = [(["stop"], [7, 8], false)] ∧
    (w.runs.map fun r => r.phase matches .receiving) = [true] := by decide

/-- For `C111_ends`: two runs, in different sessions, wait for their commands. -/
example :
    let w := Node.run sub {} [.trigger 0, .trigger 1, .cancel 0 "a", .cancel 1 "b", .poll 0 true,
      .poll 1 true]
    w.commands = [(0, 0), (1, 1)] ∧
    (w.runs.map fun r => r.phase.leaving) = [true, true] := by decide

/-! ### C112 -/

/-- Each reply comes out once, in order: what has come out is, item by item, a first part of what
has arrived. -/
theorem C112_items (hk : k.onClosed.isSome) (vs : List (QEv I C E)) :
    PassedOn k (Run.qrun k begin vs) :=
  (QInv.run hk vs).passed

/-- How a run of a querier ends: with the error of its set-up, with the message of a cancellation,
or, when the replies are over and all of them have come out, with the answer for that. -/
theorem C112_result (hk : k.onClosed.isSome) (vs : List (QEv I C E)) (res : Result C E)
    (h : (Run.qrun k begin vs).phase = .done res) : Justified k (Run.qrun k begin vs) vs res := by
  have hi := QInv.run hk vs
  rcases hi.justified res h with h1 | h1 | ⟨c, h1, h2, h3, h4⟩
  · exact .inl h1
  · exact .inr (.inl h1)
  · exact .inr (.inr ⟨c, h1, h2, hi.closes h3, h4⟩)

/-- A run that is set up and was not cancelled passes on all replies that are there at its next
poll; if there will be no more it then ends. -/
theorem C112_all (hk : k.onClosed.isSome) (vs : List (QEv I C E)) (b : Bool) :
    let r := Run.qrun k begin vs
    (r.phase = .receiving ∨ r.phase = .opening (some (.ok ()))) → r.signals = [] →
    (r.qstep k (.poll b)).outs = r.arrived.map k.item ∧
    (r.closed = true → ∃ c, k.onClosed = some c ∧ (r.qstep k (.poll b)).phase = .done (.ok c)) := by
  intro r hp hs
  obtain ⟨t, h1, h2⟩ := C112_items k hk vs
  have hout : r.outs ++ r.inbox.map k.item = r.arrived.map k.item := by
    rw [show r.arrived = _ from h1, show r.outs = _ from h2]; simp; rfl
  obtain ⟨c, hc⟩ := Option.isSome_iff_exists.1 hk
  have hwork : r.work k = some ({ r with
      phase := .receiving
      inbox := []
      outs := r.outs ++ r.inbox.map k.item },
      if r.closed then some (.ok c) else none) := by
    unfold Run.work
    rcases hp with hp | hp
    · rw [hp]
      simp only
      cases ho : r.closed with
      | false => rw [(loop_enough r _ (Nat.lt_succ_self _)).1 ho, hp]; simp [ho]
      | true => rw [(loop_enough r _ (Nat.lt_succ_self _)).2 ho c hc, hp]; simp [ho]
    · rw [hp]
      simp only
      have := loop_enough (k := k) { r with phase := .receiving } _ (Nat.lt_succ_self _)
      by_cases ho : r.closed = true
      · rw [if_pos ho]; exact this.2 ho c hc
      · rw [if_neg ho]; exact this.1 (by simpa using ho)
  have hrace : r.race k b = some ({ r with
      phase := .receiving
      inbox := []
      outs := r.outs ++ r.inbox.map k.item },
      if r.closed then some (.ok c) else none) := by
    unfold Run.race
    rw [hs]
    simp only [hwork]
    cases r.closed <;> simp [hs]
  have hstep : r.qstep k (.poll b) = { r with
      phase := if r.closed then .done (.ok c) else .receiving
      inbox := []
      outs := r.outs ++ r.inbox.map k.item } := by
    simp only [Run.qstep]
    rcases hp with hp | hp <;> rw [hp] <;> simp only [hrace] <;> cases r.closed <;> rfl
  rw [hstep]
  exact ⟨hout, fun ho => ⟨c, hc, by simp [ho]⟩⟩

/-- A cancellation ends a run at its next poll, wherever it is. -/
theorem C112_cancel (hk : k.onClosed.isSome) (r : Run I O C E) (b : Bool)
    (hp : r.phase = .receiving ∨ ∃ o, r.phase = .opening o) (hs : r.signals ≠ []) :
    ∃ res, (r.qstep k (.poll b)).phase = .done res := by
  obtain ⟨c, cs, hs⟩ := List.exists_cons_of_ne_nil hs
  have hrace : ∃ r' res, r.race k b = some (r', some res) := by
    unfold Run.race
    rw [hs]
    cases b with
    | true => exact ⟨_, _, rfl⟩
    | false =>
      simp only
      rcases work_some hk r with ⟨r', o, hw⟩
      rw [hw]
      cases o with
      | none => exact ⟨_, _, rfl⟩
      | some res => exact ⟨_, _, rfl⟩
  obtain ⟨r', res, hrace⟩ := hrace
  refine ⟨res, ?_⟩
  simp only [Run.qstep]
  rcases hp with hp | ⟨o, hp⟩ <;> rw [hp] <;> simp only [hrace]

/-- The querier node, with numbers as replies that decode to themselves. -/
def querier : Kind Nat (Option Nat) String String :=
  { item := some, onClosed := some "null", closedItem := none }

/-- Two replies, and the end of them; and one that is cancelled while a reply is waiting. -/
example :
    let vs := [.poll false, .opened (.ok ()), .item 7, .poll false, .item 8, .close]
    (Run.qrun querier begin vs).outs = [some 7] ∧
    (Run.qrun querier begin (vs ++ [.poll true])).outs = [some 7, some 8] ∧
    ((Run.qrun querier begin (vs ++ [.poll true])).phase matches .done (.ok "null")) ∧
    ((Run.qrun querier begin (vs ++ [.cancel "stop", .poll true])).phase
      matches .done (.ok "stop")) ∧
    ((Run.qrun querier begin [.opened (.error "e"), .poll true]).phase
      matches .done (.error "e")) := by decide

end Verif.Zenoh.Nodes
