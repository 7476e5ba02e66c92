import Verif.Trim.Nodes

/-
C40, C41 and C68 for the trim operation.
-/
namespace Verif.Trim

open Verif.Graph (Net Links allTargets OneOutput NoNamed)

/-! ### C40: which operations are trimmed -/

/-- A workflow for the examples: 0 (the entry) → 1, 1 → 2 and 3, 2 → 1, 3 → 4. -/
def exampleNet : Net :=
  [(0, ⟨some 1, none, [], []⟩), (1, ⟨none, some [2, 3], [], []⟩), (2, ⟨some 1, none, [], []⟩),
   (3, ⟨some 4, none, [], []⟩)]

theorem exampleNet_one : OneOutput exampleNet := by
  intro e l h
  have hm := lookup_mem h
  simp [exampleNet] at hm
  rcases hm with ⟨-, rfl⟩ | ⟨-, rfl⟩ | ⟨-, rfl⟩ | ⟨-, rfl⟩ <;> simp

theorem exampleNet_noNamed : NoNamed exampleNet := by
  intro e l h
  have hm := lookup_mem h
  simp [exampleNet] at hm
  rcases hm with ⟨-, rfl⟩ | ⟨-, rfl⟩ | ⟨-, rfl⟩ | ⟨-, rfl⟩ <;> rfl

/-- C40: in every workflow, cycles included, the operations to trim are found, or the request
is refused; the search always ends. -/
theorem C40_ends (w : Net) (entry : Nat) (branches : List Branch) :
    calculateNodes w entry branches ≠ none := by
  rcases calculateNodes_spec w entry branches with ⟨-, e, h⟩ | ⟨-, l, h, -⟩ <;> rw [h] <;> simp

/-- C40: when each end of each span can be reached from the start of its branch without going
through the operations that lie between the entry of the scope and that start, then the
operations to trim are exactly those that the branches ask for, each once. -/
theorem C40_partial (w : Net) (entry : Nat) (branches : List Branch) (h1 : OneOutput w)
    (h2 : NoNamed w) (hv : ∀ b ∈ branches, Valid (allTargets w) entry b) :
    ∃ l, calculateNodes w entry branches = some (.ok l) ∧ l.Nodup ∧
      ∀ n, n ∈ l ↔ ∃ b ∈ branches, BranchSpec (allTargets w) entry b n := by
  rcases calculateNodes_spec w entry branches with ⟨⟨b, hb, hr⟩, -⟩ | ⟨-, l, h, hs, hm⟩
  · rw [next_eq h1 h2] at hr
    exact absurd hr (valid_not_refused (hv b hb))
  · refine ⟨l, h, hs.imp fun h => Nat.ne_of_lt h, ?_⟩
    intro n
    rw [hm, next_eq h1 h2]
    constructor
    · rintro ⟨b, hb, ht⟩
      exact ⟨b, hb, (valid_takes (hv b hb) n).1 ht⟩
    · rintro ⟨b, hb, ht⟩
      exact ⟨b, hb, (valid_takes (hv b hb) n).2 ht⟩

/-- The span from 1 to 4 is valid. -/
theorem example_valid :
    Valid (allTargets exampleNet) 0 ⟨⟨1, true⟩, .span [⟨4, false⟩]⟩ := by
  have hb : ∀ n, Between (allTargets exampleNet) 0 1 n → n = 0 := by
    rintro n ⟨hn, hw, -⟩
    cases hw with
    | here => rfl
    | @step p _ hp hl he _ =>
      have : p = 0 := by
        have hall : ∀ q, Walk (allTargets exampleNet) (· ≠ 1) (fun _ => ¬ False) 0 q →
            q = 0 ∨ q = 1 := by
          intro q hq
          induction hq with
          | here => exact .inl rfl
          | step _ hl he _ ih =>
            rcases ih with rfl | rfl
            · have : _ ∈ [1] := he
              simp at this
              exact .inr this
            · exact absurd rfl hl
        rcases hall p hp with h | h
        · exact h
        · exact absurd h hl
      subst this
      have : n ∈ [1] := he
      simp at this
      exact absurd this hn
  intro q hq
  simp at hq
  subst hq
  have s3 : Walk (allTargets exampleNet) (fun _ => True)
      (fun m => ¬ Between (allTargets exampleNet) 0 1 m) 1 3 :=
    .step .here trivial (show 3 ∈ [2, 3] by simp) (fun h => by have := hb 3 h; omega)
  exact .step s3 trivial (show 4 ∈ [4] by simp) (fun h => by have := hb 4 h; omega)

example : ∃ l, calculateNodes exampleNet 0 [⟨⟨1, true⟩, .span [⟨4, false⟩]⟩] = some (.ok l) ∧
    l.Nodup ∧ ∀ n, n ∈ l ↔ ∃ b ∈ [(⟨⟨1, true⟩, .span [⟨4, false⟩]⟩ : Branch)],
      BranchSpec (allTargets exampleNet) 0 b n :=
  C40_partial _ _ _ exampleNet_one exampleNet_noNamed
    (by intro b hb; simp at hb; subst hb; exact example_valid)

/-- C40: branches that ask for everything downstream are never refused and trim exactly what
can be reached from the start without entering an operation between the entry of the scope
and the start; the start itself only if it is inclusive. -/
theorem C40_downstream (w : Net) (entry : Nat) (p : Point) (h1 : OneOutput w) (h2 : NoNamed w) :
    ∃ l, calculateNodes w entry [⟨p, .downstream⟩] = some (.ok l) ∧ l.Nodup ∧
      ∀ n, n ∈ l ↔ Walk (allTargets w) (fun _ => True)
        (fun m => ¬ Between (allTargets w) entry p.id m) p.id n ∧
          (p.inclusive = true ∨ n ≠ p.id) := by
  obtain ⟨l, h, hn, hm⟩ := C40_partial w entry [⟨p, .downstream⟩] h1 h2
    (by intro b hb; simp at hb; subst hb; trivial)
  refine ⟨l, h, hn, ?_⟩
  intro n
  rw [hm]
  simp [BranchSpec, DownstreamSpec]

example : calculateNodes exampleNet 0 [⟨⟨2, true⟩, .downstream⟩] = some (.ok [2]) := rfl

example : calculateNodes exampleNet 0 [⟨⟨1, true⟩, .downstream⟩] = some (.ok [1, 2, 3, 4]) :=
  rfl

/-- C40: a single point trims that point and nothing else. -/
theorem C40_single (w : Net) (entry n : Nat) :
    calculateNodes w entry [Branch.single n] = some (.ok [n]) := by
  rcases calculateNodes_spec w entry [Branch.single n] with ⟨⟨b, hb, hr⟩, -⟩ | ⟨-, l, h, hs, hm⟩
  · simp at hb
    subst hb
    obtain ⟨ends, he, q, hq, hbt⟩ := hr
    cases he
    simp at hq
    subst hq
    exact absurd rfl hbt.1
  · have hl : ∀ m, m ∈ l ↔ m = n := by
      intro m
      rw [hm]
      constructor
      · rintro ⟨b, hb, ht⟩
        simp at hb
        subst hb
        obtain ⟨q, hq, h1, -⟩ := ht
        simp at hq
        subst hq
        rcases h1 with h1 | ⟨h1, -⟩
        · exact h1
        · have : ∀ x, Walk (Verif.Graph.next w) (· ≠ n)
              (fun m => ¬ Between (Verif.Graph.next w) entry n m) n x → x = n := by
            intro x hx
            induction hx with
            | here => rfl
            | step _ hl _ _ ih => exact absurd ih hl
          exact this m h1
      · rintro rfl
        exact ⟨_, .head _, ⟨_, .head _, .inl rfl, .inl rfl, .inl rfl⟩⟩
    rw [h]
    match l, hs, hl with
    | [], _, hl => exact absurd ((hl n).2 rfl) (by simp)
    | [a], _, hl => rw [(hl a).1 (.head _)]
    | a :: b :: r, hs, hl =>
      have e1 := (hl a).1 (.head _)
      have e2 := (hl b).1 (.tail _ (.head _))
      rw [List.pairwise_cons] at hs
      have := hs.1 b (.head _)
      omega

/-- C40: a request is refused exactly when an end of a span lies between the entry of the
scope and the start of the span. -/
theorem C40_refused (w : Net) (entry : Nat) (branches : List Branch) (h1 : OneOutput w)
    (h2 : NoNamed w) :
    (∃ e, calculateNodes w entry branches = some (.error e)) ↔
      ∃ b ∈ branches, ∃ ends, b.policy = .span ends ∧ ∃ q ∈ ends,
        Between (allTargets w) entry b.start.id q.id := by
  rw [← next_eq h1 h2]
  rcases calculateNodes_spec w entry branches with ⟨hb, he⟩ | ⟨hb, l, h, -, -⟩
  · exact ⟨fun _ => hb, fun _ => he⟩
  · constructor
    · rintro ⟨e, he⟩
      rw [h] at he
      cases he
    · rintro ⟨b, hm, hr⟩
      exact absurd hr (hb b hm)

example : calculateNodes exampleNet 0 [⟨⟨3, true⟩, .span [⟨1, true⟩]⟩] =
    some (.error (3, some 1)) := rfl

/-- C40 does not hold: a span whose end cannot be reached from its start, and which does not
lie upstream, is not refused; it trims its end alone. -/
theorem C40_unreachable_violated (w : Net) (entry : Nat) (p q : Point) (h1 : OneOutput w)
    (h2 : NoNamed w)
    (hn : ¬ Walk (allTargets w) (fun _ => True) (fun _ => True) p.id q.id)
    (hb : ¬ Between (allTargets w) entry p.id q.id) :
    ∃ l, calculateNodes w entry [⟨p, .span [q]⟩] = some (.ok l) ∧
      ∀ n, n ∈ l ↔ n = q.id ∧ q.inclusive = true := by
  rw [← next_eq h1 h2] at hn hb
  have hpq : q.id ≠ p.id := by
    intro e
    rw [e] at hn
    exact hn .here
  rcases calculateNodes_spec w entry [⟨p, .span [q]⟩] with ⟨⟨b, hm, hr⟩, -⟩ | ⟨-, l, h, -, hm⟩
  · simp at hm
    subst hm
    obtain ⟨ends, he, q', hq, hbt⟩ := hr
    cases he
    simp at hq
    subst hq
    exact absurd hbt hb
  · refine ⟨l, h, ?_⟩
    intro n
    rw [hm]
    constructor
    · rintro ⟨b, hb', ht⟩
      simp at hb'
      subst hb'
      obtain ⟨q', hq, h1 | ⟨h1, h2⟩, h3, h4⟩ := ht
      · simp at hq
        subst hq
        refine ⟨h1, ?_⟩
        rcases h4 with h4 | h4
        · exact h4
        · exact absurd h1 h4
      · simp at hq
        subst hq
        exfalso
        exact hn (Walk.congr (fun _ _ h => h) (fun _ _ => trivial) (fun _ _ => trivial)
          (h1.trans h2))
    · rintro ⟨rfl, hi⟩
      exact ⟨_, .head _, ⟨q, .head _, .inl rfl, .inr hpq, .inl hi⟩⟩

example : calculateNodes exampleNet 0 [⟨⟨4, true⟩, .span [⟨3, true⟩]⟩] =
    some (.error (4, some 3)) := rfl

/-- Operation 7 feeds 4 but is neither fed by the entry nor by 4. -/
example : calculateNodes ((7, ⟨some 4, none, [], []⟩) :: exampleNet) 0
    [⟨⟨4, true⟩, .span [⟨7, true⟩]⟩] = some (.ok [7]) := rfl

/-- C40 does not hold: an operation that only leads back to the start of a span is trimmed,
although the documentation of `TrimBranch::span` says that it is not. Here operation 2 feeds
operation 1 only, and the span goes from 1 to 3. -/
theorem C40_cycle_violated :
    allTargets exampleNet 2 = [1] ∧
    calculateNodes exampleNet 0 [⟨⟨1, true⟩, .span [⟨3, true⟩]⟩] = some (.ok [1, 2, 3]) :=
  ⟨rfl, rfl⟩

/-- C40 does not hold: a span without ends trims nothing, although the documentation of
`TrimBranch::span` says that it behaves like a single point. -/
theorem C40_empty_violated (w : Net) (entry : Nat) (p : Point) :
    calculateNodes w entry [⟨p, .span []⟩] = some (.ok []) ∧
    calculateNodes w entry [Branch.single p.id] = some (.ok [p.id]) :=
  ⟨rfl, C40_single w entry p.id⟩

/-- C40 does not hold: what is fed by a named stream only is not counted as downstream. -/
theorem C40_named_violated :
    ∃ w : Net, 5 ∈ allTargets w 1 ∧
      calculateNodes w 0 [⟨⟨1, true⟩, .downstream⟩] = some (.ok [1, 2]) :=
  ⟨[(0, ⟨some 1, none, [], []⟩), (1, ⟨some 2, none, [], [5]⟩)], by decide, rfl⟩

/-! ### C41: what happens to the message -/

/-- C41: for a trim with something to trim, none of which is the trim itself or an output that
nobody connected: every message that entered waits, is held, was sent on or was dropped by
another cleaner, once; and when no message waits and no cleanup is under way, all were sent
on or dropped. -/
theorem C41_sent_partial (c : Config) (ns : List Nat)
    (hc : calculateNodes c.net c.entry c.branches = some (.ok ns)) (hne : ns ≠ [])
    (hself : c.self ∉ ns) (hall : ∀ n ∈ ns, c.cleanable n = true) (ops : List Op) :
    ((run c ops).inputs ++ ((run c ops).holding.map (·.2) ++ (run c ops).out) ++
      dropped c {} ops).Perm (entered ops) ∧
    ((run c ops).inputs = [] → (run c ops).cleaning = [] → (run c ops).finished = [] →
      ((run c ops).out ++ dropped c {} ops).Perm (entered ops)) := by
  have g : Good c ns := ⟨hc, hne, hself, hall⟩
  have hp := ledger_run g ops
  refine ⟨hp, ?_⟩
  intro hi hcl hf
  have hh : (run c ops).holding = [] := by
    cases hq : (run c ops).holding with
    | nil => rfl
    | cons q r =>
      rcases (held_run g ops).owed q (by rw [hq]; exact .head _) with h | ⟨l, -, hl, h⟩
      · rw [hf] at h; cases h
      · cases l with
        | nil => exact absurd rfl hl
        | cons n l =>
          obtain ⟨s, hs⟩ := h n (.head _)
          rw [hcl] at hs
          cases hs
  unfold State.here at hp
  rw [hi, hh] at hp
  exact hp

/-- C41: a cleanup that is under way can be reported, which ends it. -/
theorem C41_progress (c : Config) (ops : List Op) (id n s : Nat)
    (h : (id, n, s) ∈ (run c ops).cleaning) :
    (run c (ops ++ [.report id n])).cleaning.length + 1 = (run c ops).cleaning.length := by
  rw [run_snoc]
  show ((run c ops).report id n).cleaning.length + 1 = _
  unfold State.report
  cases hk : (run c ops).cleaning.find? fun k => k.1 = id && k.2.1 = n with
  | none =>
    have := List.find?_eq_none.1 hk _ h
    simp at this
  | some k =>
    have hm := List.mem_of_find?_eq_some hk
    have hl := List.length_erase_of_mem hm
    have hp : 0 < (run c ops).cleaning.length := List.length_pos_of_mem hm
    dsimp only
    rcases notify_cases { run c ops with cleaning := (run c ops).cleaning.erase k } id n k.2.2 with
      ⟨-, e⟩ | ⟨l, -, ⟨-, e⟩ | ⟨-, e⟩⟩ <;> rw [e] <;>
      (show ((run c ops).cleaning.erase k).length + 1 = _; omega)

/-- C41: a message is sent on only when a cleanup is finished, and then each of the operations
has reported back from its cleanup in the session of that message, begun for that message. -/
theorem C41_after (c : Config) (ops : List Op) (op : Op) (ms : List (Nat × Nat)) (hms : ms ≠ [])
    (h : (run c (ops ++ [op])).out = (run c ops).out ++ ms) :
    op = .finish ∧ ∃ m id ns, ms = [m] ∧
      calculateNodes c.net c.entry c.branches = some (.ok ns) ∧
      (id, m) ∈ (run c ops).holding ∧ ∀ n ∈ ns, Told c ops id n m.1 := by
  have hbad : (run c (ops ++ [op])).out ≠ [] := by
    rw [h]
    simp [hms]
  rcases calculateNodes_spec c.net c.entry c.branches with ⟨-, e, he⟩ | ⟨-, ns, hc, -, -⟩
  · exfalso
    have := (refused_fold he (ops ++ [op]) (st := {}) ⟨.inl rfl, rfl, rfl, rfl, rfl⟩).1.out
    exact hbad this
  · by_cases hh : Hopeless c ns
    · exact absurd (silent_run hc hh (ops ++ [op])).out hbad
    · have g : Good c ns := by
        refine ⟨hc, fun e => hh (.inl e), fun e => hh (.inr (.inl e)), ?_⟩
        intro n hn
        cases hcl : c.cleanable n with
        | true => rfl
        | false => exact absurd (.inr (.inr ⟨n, hn, hcl⟩)) hh
      have hl := held_run g ops
      have hs := sess_run g ops
      rw [run_snoc] at h
      have same : ((run c ops).step c op).out = (run c ops).out → False := by
        intro e
        rw [e] at h
        exact hms (by simpa using h)
      cases op with
      | input s d => exact (same rfl).elim
      | execute =>
        refine (same ?_).elim
        show ((run c ops).execute c).out = _
        rcases execute_good g hl.nodes with ⟨-, e⟩ | ⟨s, d, rest, -, e⟩ <;> rw [e] <;> rfl
      | report id node =>
        refine (same ?_).elim
        show ((run c ops).report id node).out = _
        unfold State.report
        cases (run c ops).cleaning.find? fun k => k.1 = id && k.2.1 = node with
        | none => rfl
        | some k =>
          dsimp only
          rcases notify_cases { run c ops with cleaning := (run c ops).cleaning.erase k }
            id node k.2.2 with ⟨-, e⟩ | ⟨l, -, ⟨-, e⟩ | ⟨-, e⟩⟩ <;> rw [e]
      | finish =>
        refine ⟨rfl, ?_⟩
        rcases finish_cases (run c ops) with ⟨-, e⟩ | ⟨id, s, rest, hf, ⟨-, e⟩ | ⟨m, nodes, hk, e⟩⟩
        · refine (same ?_).elim
          show (run c ops).finish.out = _
          rw [e]
        · refine (same ?_).elim
          show (run c ops).finish.out = _
          rw [e]
        · have h : (run c ops).finish.out = (run c ops).out ++ ms := h
          rw [e] at h
          have hm : [m] = ms := List.append_cancel_left h
          refine ⟨m, id, ns, hm.symm, hc, lookup_mem hk, ?_⟩
          intro n hn
          obtain ⟨s', ht⟩ := hl.finished id (by rw [hf]; exact .head _) n hn
          have := hs.was _ (lookup_mem hk) n s' ht
          have this : s' = m.1 := this
          exact this ▸ ht
      | clean s => exact (same rfl).elim

/-- C41 does not hold: when there is nothing to trim, or the trim itself is among the
operations, or an output that nobody connected is among them, then no message is ever sent on
and nothing is cancelled, whatever happens. -/
theorem C41_never_violated (c : Config) (ns : List Nat)
    (hc : calculateNodes c.net c.entry c.branches = some (.ok ns))
    (hbad : ns = [] ∨ c.self ∈ ns ∨ ∃ n ∈ ns, c.cleanable n = false) (ops : List Op) :
    (run c ops).out = [] ∧ (run c ops).cancelled = [] := by
  refine ⟨(silent_run hc hbad ops).out, ?_⟩
  have : ∀ (ops : List Op) (st : State), Silent c ns st → st.cancelled = [] →
      (ops.foldl (State.step c) st).cancelled = [] := by
    intro ops
    induction ops with
    | nil => intro st _ h; exact h
    | cons op ops ih =>
      intro st hs h
      refine ih _ (hs.step hc op) ?_
      have hcn : ∀ (id s : Nat) (l : List Nat) (st : State),
          (l.foldl (fun st n => st.cleanNode c id s n) st).cancelled = st.cancelled := by
        intro id s l
        induction l with
        | nil => intro st; rfl
        | cons n l ih =>
          intro st
          rw [List.foldl_cons, ih]
          unfold State.cleanNode
          split
          · rcases notify_cases (st.clean s) id n s with ⟨-, e⟩ | ⟨l, -, ⟨-, e⟩ | ⟨-, e⟩⟩ <;>
              rw [e] <;> rfl
          · split <;> rfl
      cases op with
      | input s d => exact h
      | execute =>
        show (st.execute c).cancelled = []
        unfold State.execute
        cases hi : st.inputs with
        | nil => exact h
        | cons a rest =>
          rcases hs.nodes with hn | hn
          · simp only [hn, hc, State.trim]
            rw [hcn]
            exact h
          · simp only [hn, State.trim]
            rw [hcn]
            exact h
      | report id node =>
        show (st.report id node).cancelled = []
        unfold State.report
        cases st.cleaning.find? fun k => k.1 = id && k.2.1 = node with
        | none => exact h
        | some k =>
          dsimp only
          rcases notify_cases { st with cleaning := st.cleaning.erase k } id node k.2.2 with
            ⟨-, e⟩ | ⟨l, -, ⟨-, e⟩ | ⟨-, e⟩⟩ <;> rw [e] <;> exact h
      | finish =>
        show st.finish.cancelled = []
        rcases finish_cases st with ⟨-, e⟩ | ⟨id, s, rest, -, ⟨-, e⟩ | ⟨m, nodes, -, e⟩⟩ <;>
          rw [e] <;> exact h
      | clean s => exact h
  exact this ops _ (silent_init hbad) rfl

/-- C41: when a branch is refused, nothing is sent on and for every message that was handled
its session was cancelled, once; the others wait or were dropped by another cleaner. -/
theorem C41_cancel (c : Config) (e : Invalid)
    (hc : calculateNodes c.net c.entry c.branches = some (.error e)) (ops : List Op) :
    (run c ops).out = [] ∧ (run c ops).holding = [] ∧
    (((run c ops).inputs ++ dropped c {} ops).map (·.1) ++ (run c ops).cancelled).Perm
      ((entered ops).map (·.1)) := by
  obtain ⟨h, p⟩ := refused_fold hc ops (st := {}) ⟨.inl rfl, rfl, rfl, rfl, rfl⟩
  exact ⟨h.out, h.holding, by simpa [run] using p⟩

/-- A trim of operations 3 and 4 in the workflow above, at entity 9. -/
def exampleConfig : Config :=
  { net := exampleNet, entry := 0, branches := [⟨⟨3, true⟩, .downstream⟩], self := 9,
    cleanable := fun n => n ≠ 7 }

example : calculateNodes exampleConfig.net exampleConfig.entry exampleConfig.branches =
    some (.ok [3, 4]) ∧ exampleConfig.self ∉ [3, 4] ∧
    ∀ n ∈ [3, 4], exampleConfig.cleanable n = true := ⟨rfl, by decide, by decide⟩

example :
    let st := run exampleConfig
      [.input 1 5, .input 2 6, .execute, .execute, .report 1 3, .report 0 4, .report 1 4, .finish,
       .report 0 3, .finish]
    st.out = [(2, 6), (1, 5)] ∧ st.holding = [] ∧ st.cleaning = [] ∧ st.finished = [] := by
  decide

/-- `C41_after` for the second message. -/
example :
    (run exampleConfig ([.input 1 5, .input 2 6, .execute, .execute, .report 1 3, .report 0 4,
      .report 1 4] ++ [.finish])).out =
    (run exampleConfig [.input 1 5, .input 2 6, .execute, .execute, .report 1 3, .report 0 4,
      .report 1 4]).out ++ [(2, 6)] := by decide

/-- The trim is operation 4 itself; the message is lost. -/
example :
    let c : Config := { exampleConfig with self := 4 }
    let st := run c [.input 1 5, .execute, .report 0 3, .finish]
    st.out = [] ∧ st.holding = [] ∧ st.cleaning = [] ∧ st.finished = [] ∧ st.inputs = [] := by
  decide

/-- Operation 4 is an output that was not connected; the message is held for ever. -/
example :
    let c : Config := { exampleConfig with cleanable := fun n => n ≠ 4 }
    let st := run c [.input 1 5, .execute, .report 0 3, .report 0 4, .finish]
    st.out = [] ∧ st.holding = [(0, 1, 5)] ∧ st.cleaning = [] ∧ st.finished = [] := by decide

example : (run { exampleConfig with branches := [⟨⟨3, true⟩, .span [⟨1, true⟩]⟩] }
    [.input 1 5, .execute]).cancelled = [1] := by decide

/-! ### C68: a trim that holds a message counts as active -/

/-- C68: the answer of a trim that is asked for activity is exact for messages that wait or
may still arrive. -/
theorem C68_partial (c : Config) (ops : List Op) (session : Nat) (upstream : Bool) :
    (run c ops).isReachable session upstream = true ↔
      (∃ d, (session, d) ∈ (run c ops).inputs) ∨ upstream = true := by
  unfold State.isReachable
  rw [Bool.or_eq_true, List.any_eq_true]
  constructor
  · rintro (⟨⟨s, d⟩, hm, he⟩ | h)
    · simp at he
      subst he
      exact .inl ⟨d, hm⟩
    · exact .inr h
  · rintro (⟨d, hm⟩ | h)
    · exact .inl ⟨(session, d), hm, by simp⟩
    · exact .inr h

/-- C68 does not hold: a message that a trim holds while it waits for the operations to be
clean is not counted, though it is sent on later. -/
theorem C68_violated :
    ∃ (c : Config) (ops more : List Op), (0, 1, 5) ∈ (run c ops).holding ∧
      (run c ops).isReachable 1 false = false ∧ (1, 5) ∈ (run c (ops ++ more)).out :=
  ⟨exampleConfig, [.input 1 5, .execute], [.report 0 3, .report 0 4, .finish], by decide⟩

end Verif.Trim
