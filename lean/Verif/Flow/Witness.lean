import Verif.Flow.Props

/-
Workflows that meet the hypotheses of the theorems of Props.lean, and workflows that show that
their conditions are needed.
-/
namespace Verif.Flow

/-! ### Checking a workflow -/

def isBuffer (net : Net) (b : Nat) : Bool :=
  net.ops.any fun e => e.1 = b && match e.2 with | .buffer _ => true | _ => false

def buffersOk (net : Net) : Kind → Bool
  | .join bs _ => !bs.isEmpty && decide (bs.map (·.1)).Nodup && bs.all fun b => isBuffer net b.1
  | .access _ bs _ => !bs.isEmpty && bs.all (isBuffer net)
  | .gate _ bs _ => bs.all (isBuffer net)
  | _ => true

theorem isBuffer_iff {net : Net} {b : Nat} (h : isBuffer net b = true) :
    ∃ cap, (b, Kind.buffer cap) ∈ net.ops := by
  simp only [isBuffer, List.any_eq_true, Bool.and_eq_true, decide_eq_true_eq] at h
  obtain ⟨⟨m, k⟩, hm, he, hk⟩ := h
  cases k with
  | buffer cap => exact ⟨cap, by rw [← he]; exact hm⟩
  | _ => simp at hk

theorem Wired.of {net : Net} (h1 : (net.ops.map (·.1)).Nodup)
    (h2 : ∀ e, e ∈ net.ops → ∀ m, m ∈ e.2.targets → m ∈ net.ops.map (·.1))
    (h3 : ∀ e, e ∈ net.ops → buffersOk net e.2 = true) (h4 : net.entry ∈ net.ops.map (·.1))
    (h5 : (net.ops.filter fun e => e.2 = .terminate).map (·.1) = [net.terminal]) : Wired net := by
  refine ⟨h1, fun n k h => h2 _ h, ?_, ?_, ?_, h4, ?_⟩
  · intro n bs t h
    have := h3 _ h
    simp only [buffersOk, Bool.and_eq_true, List.all_eq_true, decide_eq_true_eq,
      Bool.not_eq_true', List.isEmpty_eq_false_iff] at this
    exact ⟨this.1.1, this.1.2, fun b hb => isBuffer_iff (this.2 b hb)⟩
  · intro n l bs t h
    have := h3 _ h
    simp only [buffersOk, Bool.and_eq_true, List.all_eq_true,
      Bool.not_eq_true', List.isEmpty_eq_false_iff] at this
    exact ⟨this.1, fun b hb => isBuffer_iff (this.2 b hb)⟩
  · intro n o bs t h
    have := h3 _ h
    simp only [buffersOk, List.all_eq_true] at this
    exact fun b hb => isBuffer_iff (this b hb)
  · intro n
    have hmem : n ∈ (net.ops.filter fun e => e.2 = .terminate).map (·.1) ↔
        (n, Kind.terminate) ∈ net.ops := by
      simp only [List.mem_map, List.mem_filter, decide_eq_true_eq]
      constructor
      · rintro ⟨⟨a, k⟩, ⟨ha, hk⟩, rfl⟩
        simp only at hk
        rw [hk] at ha
        exact ha
      · intro h
        exact ⟨_, ⟨h, rfl⟩, rfl⟩
    rw [← hmem, h5]
    simp

/-- Only operations of the workflow have messages, tasks and keys. -/
def Within (net : Net) (s : State) : Prop :=
  ∀ n, net.ops.lookup n = none →
    s.pending n = 0 ∧ s.tasks n = 0 ∧ s.keys n = 0 ∧ s.dropping n = 0

theorem Within.fewer {net : Net} {s s' : State} (h : Within net s)
    (hp : ∀ m, s'.pending m ≤ s.pending m) (ht : ∀ m, s'.tasks m ≤ s.tasks m)
    (hk : ∀ m, s'.keys m ≤ s.keys m) (hd : ∀ m, s'.dropping m ≤ s.dropping m) :
    Within net s' := fun n hn => by
  have := h n hn
  have := hp n
  have := ht n
  have := hk n
  have := hd n
  omega

/-- The same numbers. -/
theorem Within.same {net : Net} {s s' : State} (h : Within net s) (hp : s'.pending = s.pending)
    (ht : s'.tasks = s.tasks) (hk : s'.keys = s.keys) (hd : s'.dropping = s.dropping) :
    Within net s' := fun n hn => by
  rw [hp, ht, hk, hd]; exact h n hn

theorem Within.give {net : Net} {s : State} (h : Within net s) (m : Nat) :
    Within net (give net s m) := by
  intro n hn
  unfold Flow.give
  split
  · exact h n hn
  · exact h n hn
  · rename_i k _ hk
    refine ⟨?_, (h n hn).2⟩
    have : n ≠ m := by rintro rfl; rw [hn] at hk; cases hk
    simp [bump, this, (h n hn).1]

theorem Within.giveAll {net : Net} (ms : List Nat) {s : State} (h : Within net s) :
    Within net (giveAll net s ms) := by
  unfold Flow.giveAll
  induction ms generalizing s with
  | nil => exact h
  | cons m ms ih => exact ih (h.give m)

theorem Within.actGate {net : Net} {s : State} (h : Within net s) (opens : Bool) (b : Nat) :
    Within net (actGate net opens s b) := by
  unfold Flow.actGate
  split
  · exact Within.giveAll _ (s := { s with gates := _ }) h
  · exact h

theorem Within.execute {net : Net} {s : State} (h : Within net s) {n : Nat} {k : Kind} (c : Choice)
    (hk : net.ops.lookup n = some k) : Within net (execute net s n c k) := by
  have other : ∀ m, net.ops.lookup m = none → m ≠ n := by
    rintro m hm rfl; rw [hm] at hk; cases hk
  have start : Within net { s with tasks := bump s.tasks n } := by
    intro m hm
    have := other m hm
    exact ⟨(h m hm).1, by simp [bump, this, (h m hm).2.1], (h m hm).2.2⟩
  cases k with
  | node async t ss =>
    cases async with
    | true => exact start
    | false =>
      simp only [Flow.execute, Bool.false_eq_true, if_false]
      have := h.giveAll (copies ss c)
      split
      · exact Within.give (s := dispose _) this t
      · exact this.give t
  | fork ts => exact h.giveAll ts
  | branch a b =>
    simp only [Flow.execute]
    split
    · exact h.give a
    · exact Within.give (s := dispose s) h b
  | filter t =>
    simp only [Flow.execute]
    split
    · exact h
    · exact h.give t
  | spread t =>
    simp only [Flow.execute]
    split <;> exact h.giveAll _
  | split ts =>
    simp only [Flow.execute]
    split <;> exact h.giveAll _
  | buffer cap =>
    simp only [Flow.execute]
    split
    · exact Within.giveAll (listeners net n) (s := { s with
        held := fun m => if m = n then push cap (s.held m) else s.held m }) h
    · exact h
  | join bs t =>
    simp only [Flow.execute]
    split
    · exact Within.give (s := { s with held := fetch s.held bs }) h t
    · exact h
  | scope t ss => exact start
  | access l bs t =>
    refine Within.give (s := { s with
      keys := fun m => if m = n then s.keys m + bs.length else s.keys m
      made := fun m => m = n || s.made m }) ?_ t
    intro m hm
    have := other m hm
    exact ⟨(h m hm).1, (h m hm).2.1, by simp [this, (h m hm).2.2.1], (h m hm).2.2.2⟩
  | gate opens bs t =>
    have h1 : Within net (bs.foldl (Flow.actGate net opens) s) := by
      clear start hk
      induction bs generalizing s with
      | nil => exact h
      | cons b bs ih => exact ih (h.actGate opens b)
    simp only [Flow.execute]
    split
    · exact h1.give t
    · exact h1.give t
  | cancel => exact h
  | terminate => exact h
  | unused => exact h

theorem Within.validate {net : Net} {s : State} (h : Within net s) : Within net (validate net s) := by
  unfold Flow.validate
  split <;> exact h

theorem Within.wake {net : Net} {s : State} (h : Within net s) (n b : Nat) (loops : Bool) :
    Within net (wake net s n b loops) := by
  unfold Flow.wake
  split
  · exact h.giveAll _
  · exact h

theorem Within.step {net : Net} {s : State} (h : Within net s) (e : Ev) :
    Within net (step net s e) := by
  have low : ∀ n, Within net { s with tasks := drop s.tasks n } := fun n =>
    h.fewer (fun _ => Nat.le_refl _) (fun _ => drop_le _ _ _) (fun _ => Nat.le_refl _)
      (fun _ => Nat.le_refl _)
  unfold Flow.step
  split
  · exact h
  · cases e with
    | exec n c =>
      simp only
      split
      · exact h
      · rename_i k hk
        split
        · exact h
        · exact Within.execute (s := { s with pending := drop s.pending n })
            (h.fewer (fun _ => drop_le _ _ _) (fun _ => Nat.le_refl _) (fun _ => Nat.le_refl _)
              (fun _ => Nat.le_refl _)) c hk
    | item n i =>
      simp only
      split
      · split
        · exact h
        · split
          · exact h
          · exact h.give _
      · split
        · exact h
        · split
          · exact h
          · exact h.give _
      · exact h
    | finish n =>
      simp only
      split
      · split
        · exact h
        · split
          · exact (low n).give _
          · exact (low n).give _
      · split
        · exact h
        · exact (low n).give _
      · exact h
    | lose n =>
      simp only
      split
      · split
        · exact h
        · exact low n
      · exact h
    | innerCancel n =>
      simp only
      split
      · split
        · exact h
        · split
          · exact low n
          · exact low n
      · exact h
    | touch n b sub add loops =>
      simp only
      split
      · split
        · refine Within.wake ?_ _ _ _
          exact h
        · exact h
      · exact h
    | turn n b opens loops =>
      simp only
      split
      · split
        · exact h
        · split
          · refine Within.wake ?_ _ _ _
            exact h
          · exact h
      · exact h
    | release n =>
      simp only
      split
      · exact h
      · exact h.fewer (fun _ => Nat.le_refl _) (fun _ => Nat.le_refl _) (fun _ => drop_le _ _ _)
          (fun _ => Nat.le_refl _)
    | letGo n =>
      simp only
      split
      · exact h
      · rename_i hn
        intro m hm
        have hmn : m ≠ n := by
          rintro rfl
          exact hn (h m hm).2.2.1
        have h1 := h m hm
        have h2 : drop s.keys n m = s.keys m := drop_ne _ hmn
        have h3 : bump s.dropping n m = s.dropping m := by simp [bump, hmn]
        exact ⟨h1.1, h1.2.1, h2.trans h1.2.2.1, h3.trans h1.2.2.2⟩
    | gone n =>
      simp only
      split
      · exact h
      · exact h.fewer (fun _ => Nat.le_refl _) (fun _ => Nat.le_refl _) (fun _ => Nat.le_refl _)
          (fun _ => drop_le _ _ _)
    | check =>
      simp only
      split
      · exact h
      · exact Within.validate (s := { s with checks := s.checks - 1 }) h

theorem within_run (net : Net) (es : List Ev) : Within net (run net (start net) es) := by
  have h0 : Within net (start net) :=
    Within.validate (Within.give (fun _ _ => ⟨rfl, rfl, rfl, rfl⟩) _)
  generalize start net = s at h0
  induction es generalizing s with
  | nil => exact h0
  | cons e es ih => exact ih _ (h0.step e)

/-- Whether a session is at rest, looking only at the operations that exist. -/
def rests (net : Net) (s : State) : Bool :=
  net.ops.all (fun e => s.pending e.1 = 0 && s.tasks e.1 = 0 && s.keys e.1 = 0 &&
    s.dropping e.1 = 0) && s.checks = 0

theorem quiescent_of {net : Net} {es : List Ev}
    (h : rests net (run net (start net) es) = true) : Quiescent (run net (start net) es) := by
  simp only [rests, Bool.and_eq_true, List.all_eq_true, decide_eq_true_eq] at h
  have key : ∀ n, (run net (start net) es).pending n = 0 ∧ (run net (start net) es).tasks n = 0 ∧
      (run net (start net) es).keys n = 0 ∧ (run net (start net) es).dropping n = 0 := by
    intro n
    cases hl : net.ops.lookup n with
    | none => exact within_run net es n hl
    | some k =>
      have := h.1 _ (mem_of_lookup hl)
      exact ⟨this.1.1.1, this.1.1.2, this.1.2, this.2⟩
  exact ⟨fun n => (key n).1, fun n => (key n).2.1, fun n => (key n).2.2.1,
    fun n => (key n).2.2.2, h.2⟩

/-- Whether an event is calm in a workflow, deciding `Joined` for the operations that exist. -/
def calmB (net : Net) : Ev → Bool
  | .innerCancel _ => false
  | .letGo _ => false
  | .touch _ b _ add _ => add ≤ 1 || !net.ops.any fun e =>
      match e.2 with | .join bs _ => bs.any (·.1 = b) | _ => false
  | _ => true

theorem calm_of {net : Net} {es : List Ev} (h : es.all (calmB net) = true) :
    ∀ e, e ∈ es → Calm net e := by
  intro e he
  have := List.all_eq_true.1 h e he
  cases e with
  | innerCancel n => simp [calmB] at this
  | letGo n => simp [calmB] at this
  | touch n b sub add loops =>
    rintro ⟨j, bs, t, hj, hb⟩
    simp only [calmB, Bool.or_eq_true, decide_eq_true_eq, Bool.not_eq_true'] at this
    rcases this with h | h
    · exact h
    · have h1 := List.any_eq_false.1 h _ hj
      simp only [List.any_eq_true, decide_eq_true_eq] at h1
      exact absurd (List.mem_map.1 hb) h1
  | _ => trivial

/-! ### C78 -/

/-- The request 0 is copied to a task with a stream (1) and to an inner scope (2); the results
are joined (6), and a branch on the joined value ends the session (9) or tries again from 0. The
items of the stream are not used (8). -/
def retry : Net where
  ops := [(0, .fork [1, 2]), (1, .node true 3 [8]), (2, .scope 4 []), (3, .buffer (some 1)),
    (4, .buffer none), (6, .join [(3, false), (4, false)] 7), (7, .branch 9 0), (8, .unused),
    (9, .terminate)]
  entry := 0
  terminal := 9

theorem retry_wired : Wired retry := Wired.of (by decide) (by decide) (by decide) (by decide) rfl

theorem retry_private : Private retry where
  quiet := by
    intro n t ss h
    simp [retry] at h
    exact h.2.2
  room := by
    intro n h
    simp [retry] at h
  pulls := by
    intro n bs t h b hb
    simp [retry] at h
    obtain ⟨rfl, rfl, rfl⟩ := h
    simp at hb
    rcases hb with rfl | rfl <;> rfl
  own := by
    intro n bs t n' bs' t' h h' hne
    simp [retry] at h h'
    exact absurd (h.1.trans h'.1.symm) hne
  ungated := by
    intro n o bs t h
    simp [retry] at h
  alone := by
    intro n l bs t h
    simp [retry] at h

/-- One round of `retry`. -/
def round (c : Nat) : List Ev :=
  [.exec 0 [], .exec 1 [], .exec 2 [], .item 1 0, .finish 1, .finish 2, .exec 3 [], .exec 4 [],
    .exec 6 [], .exec 6 [], .check, .exec 7 [c], .check]

/-- The hypotheses of `C78_no_hang_partial` hold: two rounds and then the response, and a run in
which the task is lost so that the session is cancelled. -/
example : (∀ e, e ∈ round 1 ++ round 0 ++ [.exec 9 []] → Calm retry e) ∧
    Quiescent (run retry (start retry) (round 1 ++ round 0 ++ [.exec 9 []])) ∧
    (run retry (start retry) (round 1 ++ round 0)).status = .active ∧
    (run retry (start retry) (round 1 ++ round 0 ++ [.exec 9 []])).status = .terminated :=
  ⟨calm_of (by decide), quiescent_of (by decide +kernel), by decide +kernel, by decide +kernel⟩

example : Quiescent (run retry (start retry)
      [.exec 0 [], .exec 1 [], .exec 2 [], .lose 1, .finish 2, .exec 4 [], .exec 6 [], .check]) ∧
    (run retry (start retry)
      [.exec 0 [], .exec 1 [], .exec 2 [], .lose 1, .finish 2, .exec 4 [], .exec 6 [],
        .check]).status = .cancelled :=
  ⟨quiescent_of (by decide +kernel), by decide +kernel⟩

/-- The request closes the gate of buffer 2 (at 0), is put into it and starts a task (4), which
opens the gate (5). The `Listen` 3 gets a key of the buffer and passes it on to a branch, which
ends the session (7) or drops it. -/
def listening : Net where
  ops := [(0, .gate false [2] 1), (1, .fork [2, 4]), (2, .buffer none), (3, .access true [2] 6),
    (4, .node true 5 []), (5, .gate true [2] 8), (6, .branch 7 8), (7, .terminate), (8, .unused)]
  entry := 0
  terminal := 7

theorem listening_wired : Wired listening :=
  Wired.of (by decide) (by decide) (by decide) (by decide) rfl

theorem listening_private : Private listening where
  quiet := by
    intro n t ss h
    simp [listening] at h
  room := by
    intro n h
    simp [listening] at h
  pulls := by
    intro n bs t h
    simp [listening] at h
  own := by
    intro n bs t n' bs' t' h
    simp [listening] at h
  ungated := by
    rintro n o bs t _ b _ ⟨j, bs', t', h, _⟩
    simp [listening] at h
  alone := by
    intro n l bs t h
    simp [listening] at h
    obtain ⟨_, _, rfl, _⟩ := h
    simp

/-- The listener is woken up when the gate opens, takes the value through its key, closes and
opens the gate, and drops the key. -/
def listened (c : Nat) : List Ev :=
  [.exec 0 [], .check, .exec 1 [], .exec 2 [], .exec 4 [], .finish 4, .exec 5 [], .exec 3 [],
    .touch 3 2 1 3 false, .turn 3 2 false false, .turn 3 2 true false, .exec 6 [c], .check,
    .release 3, .check]

/-- The hypotheses of `C78_no_hang_partial` hold with listeners, keys and gates: a run that
terminates and a run that is cancelled when the key is dropped. -/
example : (∀ e, e ∈ listened 0 ++ [.exec 7 []] → Calm listening e) ∧
    (∀ e, e ∈ listened 1 → Calm listening e) ∧
    Quiescent (run listening (start listening) (listened 0 ++ [.exec 7 []])) ∧
    Quiescent (run listening (start listening) (listened 1)) ∧
    (run listening (start listening) (listened 0 ++ [.exec 7 []])).status = .terminated ∧
    (run listening (start listening) (listened 1)).status = .cancelled :=
  ⟨calm_of (by decide), calm_of (by decide), quiescent_of (by decide +kernel),
    quiescent_of (by decide +kernel), by decide +kernel, by decide +kernel⟩

/-- Two joins (4 and 6) on buffer 1; only the second one leads to the terminal. -/
def rivals : Net where
  ops := [(0, .fork [1, 2, 3]), (1, .buffer none), (2, .buffer none), (3, .buffer none),
    (4, .join [(1, false), (2, false)] 5), (5, .unused), (6, .join [(1, false), (3, false)] 7),
    (7, .terminate)]
  entry := 0
  terminal := 7

/-- **C78** is false when two joins pull from the same buffer: the first one takes the value,
the second one will not fire, and nobody looks whether the terminal can still be reached. -/
theorem C78_shared_buffer_violated : ¬ C78_full := by
  intro h
  refine h rivals (Wired.of (by decide) (by decide) (by decide) (by decide) rfl)
    [.exec 0 [], .exec 1 [], .exec 2 [], .exec 3 [], .exec 4 [], .exec 6 [], .exec 4 [], .exec 6 []]
    (quiescent_of (by decide +kernel)) ?_
  decide +kernel

/-- A join that clones (2) and a branch (3) of which one way goes nowhere. -/
def cloning : Net where
  ops := [(1, .buffer (some 1)), (2, .join [(1, true)] 3), (3, .branch 5 4), (4, .unused),
    (5, .terminate)]
  entry := 1
  terminal := 5

/-- **C78** is false when a join clones: the value stays in the buffer, so the search for
activity takes the join for one that will fire, although it is only told about new values. -/
theorem C78_clone_violated : ¬ C78_full := by
  intro h
  refine h cloning (Wired.of (by decide) (by decide) (by decide) (by decide) rfl)
    [.exec 1 [], .exec 2 [], .exec 3 [1], .check] (quiescent_of (by decide +kernel)) ?_
  decide +kernel

/-- A buffer that holds nothing. -/
def roomless : Net where
  ops := [(1, .buffer (some 0)), (2, .join [(1, false)] 3), (3, .terminate)]
  entry := 1
  terminal := 3

/-- **C78** is false of buffers without room (`KeepFirst(0)` and `KeepLast(0)`): the value is
dropped without a disposal. -/
theorem C78_capacity_violated : ¬ C78_full := by
  intro h
  refine h roomless (Wired.of (by decide) (by decide) (by decide) (by decide) rfl)
    [.exec 1 [], .exec 2 []] (quiescent_of (by decide +kernel)) ?_
  decide +kernel

/-- A workflow service (1) whose stream leads to the terminal and whose response is not used. -/
def streaming : Net where
  ops := [(1, .scope 2 [3]), (2, .unused), (3, .terminate)]
  entry := 1
  terminal := 3

/-- **C78** is false of inner workflows with streams: when one ends without having sent an item
nothing is announced, unlike for a task with streams. -/
theorem C78_inner_stream_violated : ¬ C78_full := by
  intro h
  refine h streaming (Wired.of (by decide) (by decide) (by decide) (by decide) rfl)
    [.exec 1 [], .finish 1] (quiescent_of (by decide +kernel)) ?_
  decide +kernel

/-- With a task in the place of the inner workflow the session is cancelled. -/
example : (run { streaming with ops := [(1, .node true 2 [3]), (2, .unused), (3, .terminate)] }
    (start { streaming with ops := [(1, .node true 2 [3]), (2, .unused), (3, .terminate)] })
    [.exec 1 [], .finish 1, .check]).status = .cancelled := by decide +kernel

/-- An inner scope between the request and the terminal. -/
def nested : Net where
  ops := [(1, .scope 2 []), (2, .terminate)]
  entry := 1
  terminal := 2

/-- **C78** is false when an inner scope is cancelled. -/
theorem C78_inner_cancel_violated : ¬ C78_full := by
  intro h
  refine h nested (Wired.of (by decide) (by decide) (by decide) (by decide) rfl)
    [.exec 1 [], .innerCancel 1] (quiescent_of (by decide +kernel)) ?_
  decide +kernel

/-- Keys of the buffers 1 and 2 are handed out together; a join (5) of one of them leads to the
terminal. -/
def paired : Net where
  ops := [(0, .access false [1, 2] 3), (1, .buffer none), (2, .buffer none), (3, .filter 4),
    (4, .unused), (5, .join [(1, false)] 6), (6, .terminate)]
  entry := 0
  terminal := 6

/-- **C78** is false when one access is for several buffers: the keys that the operation keeps
for itself share a counter, so it counts as in use for ever. -/
theorem C78_shared_counter_violated : ¬ C78_full := by
  intro h
  refine h paired (Wired.of (by decide) (by decide) (by decide) (by decide) rfl)
    [.exec 0 [], .exec 3 [0], .release 0, .release 0, .check, .check, .check]
    (quiescent_of (by decide +kernel)) ?_
  decide +kernel

/-- With one buffer the session is cancelled. -/
example : (run { paired with ops := [(0, .access false [1] 3), (1, .buffer none), (3, .filter 4),
      (4, .unused), (5, .join [(1, false)] 6), (6, .terminate)] }
    (start { paired with ops := [(0, .access false [1] 3), (1, .buffer none), (3, .filter 4),
      (4, .unused), (5, .join [(1, false)] 6), (6, .terminate)] })
    [.exec 0 [], .exec 3 [0], .release 0, .check, .check]).status = .cancelled := by decide +kernel

/-- A task (2) gets a key of buffer 1; a join of the buffer leads to the terminal through the
filter 4. -/
def lent : Net where
  ops := [(0, .access false [1] 2), (1, .buffer none), (2, .node true 5 []),
    (3, .join [(1, false)] 4), (4, .filter 6), (5, .unused), (6, .terminate)]
  entry := 0
  terminal := 6

theorem lent_wired : Wired lent := Wired.of (by decide) (by decide) (by decide) (by decide) rfl

/-- **C78** is false when the key is dropped by another thread and the scope looks for its
terminal before the counter goes down. -/
theorem C78_drop_race_violated : ¬ C78_full := by
  intro h
  refine h lent lent_wired [.exec 0 [], .exec 2 [], .letGo 0, .finish 2, .check, .gone 0]
    (quiescent_of (by decide +kernel)) ?_
  decide +kernel

/-- If the counter goes down first the session is cancelled. -/
example : (run lent (start lent)
    [.exec 0 [], .exec 2 [], .letGo 0, .finish 2, .gone 0, .check]).status = .cancelled := by
  decide +kernel

/-- **C78** is false when two values are put into the buffer of a join through a key at once: the
join is told once, and the second value lets it count as about to fire for ever. -/
theorem C78_two_values_violated : ¬ C78_full := by
  intro h
  refine h lent lent_wired [.exec 0 [], .exec 2 [], .touch 0 1 0 2 false, .release 0, .finish 2,
    .check, .exec 3 [], .exec 4 [0], .check] (quiescent_of (by decide +kernel)) ?_
  decide +kernel

/-- If the two values are put in one after the other the session is cancelled. -/
example : (run lent (start lent) [.exec 0 [], .exec 2 [], .touch 0 1 0 1 false,
    .touch 0 1 0 1 false, .release 0, .finish 2, .check, .exec 3 [], .exec 4 [0], .check,
    .exec 3 [], .exec 4 [0], .check]).status = .cancelled := by
  decide +kernel

/-- The gate of buffer 1, which a join reads, is closed (0) while two values come and is opened
afterwards (5). -/
def shut : Net where
  ops := [(0, .gate false [1] 2), (1, .buffer none), (2, .fork [1, 1, 5]),
    (3, .join [(1, false)] 4), (4, .filter 6), (5, .gate true [1] 7), (6, .terminate), (7, .unused)]
  entry := 0
  terminal := 6

theorem shut_wired : Wired shut := Wired.of (by decide) (by decide) (by decide) (by decide) rfl

/-- **C78** is false when a buffer of a join has a gate: the join is told once when the gate opens,
however many values there are. -/
theorem C78_gated_join_violated : ¬ C78_full := by
  intro h
  refine h shut shut_wired [.exec 0 [], .exec 2 [], .check, .exec 1 [], .exec 1 [], .exec 5 [],
    .exec 3 [], .exec 4 [0], .check] (quiescent_of (by decide +kernel)) ?_
  decide +kernel

/-! ### C79 -/

/-- The hypotheses of `C79_no_early_cancel_partial` hold for a workflow with a loop and a join:
7 sends the joined value to itself or on to a filter. -/
def looped : Net where
  ops := [(0, .fork [1, 2]), (1, .buffer none), (2, .buffer none),
    (6, .join [(1, false), (2, false)] 7), (7, .branch 7 8), (8, .filter 9), (9, .terminate)]
  entry := 0
  terminal := 9

theorem looped_wired : Wired looped := Wired.of (by decide) (by decide) (by decide) (by decide) rfl

theorem looped_loops : NoLoopIntoJoin looped := by
  have leaf : ∀ n, feeders looped n = [] → Acc (fun a b => a ∈ feeders looped b) n := fun n h =>
    ⟨_, fun m hm => by rw [h] at hm; simp at hm⟩
  have h0 := leaf 0 (by decide)
  have up : ∀ n, feeders looped n = [0] → Acc (fun a b => a ∈ feeders looped b) n := fun n h =>
    ⟨_, fun m hm => by
      rw [h] at hm
      have : m = 0 := by simpa using hm
      rw [this]; exact h0⟩
  intro n bs t h _
  simp [looped] at h
  obtain ⟨rfl, rfl, rfl⟩ := h
  refine ⟨_, fun m hm => ?_⟩
  have : feeders looped 6 = [1, 2] := by decide
  rw [this] at hm
  simp at hm
  rcases hm with rfl | rfl
  · exact up 1 (by decide)
  · exact up 2 (by decide)

/-- A run of `looped` that goes through the loop of 7 and is cancelled after the filter has
dropped the value. -/
def loopedRun : List Ev :=
  [.exec 0 [], .exec 1 [], .exec 2 [], .exec 6 [], .exec 6 [], .exec 7 [0], .check, .exec 7 [1],
    .check, .exec 8 [0]]

example : (run looped (start looped) loopedRun).status = .active ∧
    (step looped (run looped (start looped) loopedRun) .check).status = .cancelled := by
  decide +kernel

theorem looped_gates : GatesOnlyClose looped ∧ JoinsUngated looped := by
  constructor
  · intro n bs t h
    simp [looped] at h
  · intro n o bs t h
    simp [looped] at h

/-- The hypotheses of the C79 theorems hold with a listener, keys and a gate: the request is put
into buffer 1 and starts the task 4; the listener 2 passes its key to a filter; 5 closes the
gate. -/
def closing : Net where
  ops := [(0, .fork [1, 4]), (1, .buffer none), (2, .access true [1] 3), (3, .filter 6),
    (4, .node true 5 []), (5, .gate false [1] 7), (6, .terminate), (7, .unused)]
  entry := 0
  terminal := 6

theorem closing_ok : Wired closing ∧ NoLoopIntoJoin closing ∧ GatesOnlyClose closing ∧
    JoinsUngated closing := by
  refine ⟨Wired.of (by decide) (by decide) (by decide) (by decide) rfl, ?_, ?_, ?_⟩
  · intro n bs t h
    simp [closing] at h
  · intro n bs t h
    simp [closing] at h
  · rintro n o bs t _ b _ ⟨j, bs', t', h, _⟩
    simp [closing] at h

/-- Cancelled after the gate was closed and the key was dropped, not while the key is in use. -/
example : let s := run closing (start closing) [.exec 0 [], .exec 1 [], .exec 2 [], .exec 3 [0],
      .exec 4 [], .finish 4, .exec 5 [], .check, .check]
    s.status = .active ∧ (step closing (step closing s (.release 2)) .check).status = .cancelled := by
  decide +kernel

/-- A join of two buffers that are fed by the operations 3 and 4 of a loop; 5 feeds the loop. -/
def loopJoin : Net where
  ops := [(0, .join [(1, false), (2, false)] 6), (1, .buffer none), (2, .buffer none),
    (3, .fork [1, 4]), (4, .branch 3 2), (5, .node false 3 []), (6, .terminate)]
  entry := 5
  terminal := 6

theorem loopJoin_wired : Wired loopJoin :=
  Wired.of (by decide) (by decide) (by decide) (by decide) rfl

/-- **C79** is false in full: while 3 is examined the search takes 4 for unreachable and keeps this
answer, so the workflow is cancelled as soon as it begins, although it would have terminated. -/
theorem C79_join_cycle_violated : ¬ C79_full ∧
    (start loopJoin).status = .cancelled ∧
    (run loopJoin (received loopJoin) [.exec 5 [], .exec 3 [], .exec 1 [], .exec 4 [1], .exec 2 [],
      .exec 0 [], .exec 6 []]).status = .terminated := by
  refine ⟨?_, by decide +kernel, by decide +kernel⟩
  intro h
  refine (h loopJoin loopJoin_wired).1 (by decide +kernel) [.exec 5 [], .exec 3 [], .exec 1 [],
    .exec 4 [1], .exec 2 [], .exec 0 [], .exec 6 []] ?_
  decide +kernel

/-- The result of node 0 is put into buffer 1; a listener of it (2) puts its key into buffer 3, and a
join of both leads to the terminal. -/
def echo : Net where
  ops := [(0, .node false 1 []), (1, .buffer none), (2, .access true [1] 3), (3, .buffer none),
    (4, .join [(1, false), (3, false)] 5), (5, .terminate)]
  entry := 0
  terminal := 5

/-- **C79** is false when a join reads a buffer that also has a listener upstream of the join: the
listener may use its key on the buffer, so there is a cycle, and while the buffer is examined the
search takes the listener for unreachable and keeps this answer. -/
theorem C79_listen_cycle_violated : ¬ C79_full ∧
    (start echo).status = .cancelled ∧
    (run echo (received echo) [.exec 0 [], .exec 1 [], .exec 2 [], .exec 3 [], .exec 4 [],
      .exec 4 [], .exec 5 []]).status = .terminated := by
  refine ⟨?_, by decide +kernel, by decide +kernel⟩
  intro h
  refine (h echo (Wired.of (by decide) (by decide) (by decide) (by decide) rfl)).1
    (by decide +kernel) [.exec 0 [], .exec 1 [], .exec 2 [], .exec 3 [], .exec 4 [], .exec 4 [],
      .exec 5 []] ?_
  decide +kernel

/-- **C79** is false when a gate is opened later: the buffer has already got its value, so the
search takes the closed buffer for one from which nothing will come, although its listener is
woken up when the gate opens. -/
theorem C79_open_later_violated : ¬ C79_full := by
  intro h
  refine (h listening listening_wired).2 [.exec 0 [], .exec 1 [], .exec 2 [], .exec 4 []]
    (by decide +kernel) (by decide +kernel) [.finish 4, .exec 5 [], .exec 3 [], .exec 6 [0],
      .exec 7 []] ?_
  decide +kernel

/-- The gate of buffer 1 is closed before a value comes; a join of the buffers 1 and 4. -/
def halfShut : Net where
  ops := [(0, .gate false [1] 2), (1, .buffer none), (2, .fork [1, 4]), (4, .buffer none),
    (5, .join [(1, false), (4, false)] 6), (6, .terminate)]
  entry := 0
  terminal := 6

/-- **C79** is false when a buffer of a join has a gate: while the gate is closed the value still
comes into the buffer, and the other buffer tells the join. -/
theorem C79_gated_join_violated : ¬ C79_full := by
  intro h
  refine (h halfShut (Wired.of (by decide) (by decide) (by decide) (by decide) rfl)).2 [.exec 0 []]
    (by decide +kernel) (by decide +kernel) [.exec 2 [], .exec 1 [], .exec 4 [], .exec 5 [],
      .exec 6 []] ?_
  decide +kernel

/-! ### C80 -/

/-- The hypotheses of `C80_request_partial` and `C80_inner_violated` hold: the request 1 runs a
workflow with the node 2, which has the session 3 and an inner scope with the node 4. -/
example : let ents := [(1, requestSession), (2, finishCleanup), (3, innerSession),
      (4, finishCleanup)]
    emitCancel ents 2 1 = some 1 ∧ emitCancel ents 4 3 = none := by decide

/-- **C80** is false in full. -/
theorem C80_violated : ¬ C80_full := by
  intro h
  have := h nested (run nested (start nested) [.exec 1 []]) 1 2 []
    (Wired.of (by decide) (by decide) (by decide) (by decide) rfl) (by decide +kernel) rfl
    (by decide +kernel)
  revert this
  decide +kernel

/-- The hypotheses of `C80_hang_violated` hold. -/
example : let s := run nested (start nested) [.exec 1 []]
    s.status = .active ∧ s.tasks 1 = 1 ∧ s.checks = 0 ∧ s.pending 1 = 0 ∧ s.pending 2 = 0 ∧
      s.keys 1 = 0 ∧ s.dropping 1 = 0 := by
  decide +kernel

end Verif.Flow
