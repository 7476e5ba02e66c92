import Verif.Values.Props
import Verif.Flow.Witness

/-
Workflows that meet the hypotheses of the theorems of Props.lean, and workflows that show that
their conditions are needed.
-/
namespace Verif.Values

open Flow (Wired)

/-! ### Checking a workflow -/

section
variable {α : Type}

/-- What an operation sends. -/
def outs : Kind α → α → List (Nat × α)
  | .node _ f t ss items, v => (t, f v) :: deal ss (items v)
  | .fork ts part, v => parts part v 0 ts
  | .branch a b f, v => match f v with | .inl u => [(a, u)] | .inr u => [(b, u)]
  | .filter t f, v => match f v with | some u => [(t, u)] | none => []
  | .spread t f, v => (f v).map fun u => (t, u)
  | .split ts f, v => deal ts (f v)
  | _, _ => []

theorem mem_outs {k : Kind α} {v : α} {m : Nat} {u : α} (h : Sends k v m u) :
    (m, u) ∈ outs k v := by
  cases h with
  | response a f t ss items v => exact List.mem_cons_self
  | item a f t ss items v i m us u h1 h2 h3 =>
    exact List.mem_cons_of_mem _ (mem_deal.2 ⟨i, us, h1, h2, h3⟩)
  | fork ts part v i m h => exact mem_parts.2 ⟨i, h, by simp⟩
  | first a b f v u h => simp [outs, h]
  | second a b f v u h => simp [outs, h]
  | filter t f v u h => simp [outs, h]
  | spread t f v u h => simpa [outs] using h
  | split ts f v i m us u h1 h2 h3 => exact mem_deal.2 ⟨i, us, h1, h2, h3⟩

/-- The values that a join can combine when its buffers get those of `T`. -/
def combine (T : List (Nat × α)) : List (Nat × Bool) → List (List α)
  | [] => [[]]
  | b :: bs => ((T.filter fun p => p.1 = b.1).map (·.2)).flatMap fun v =>
      (combine T bs).map fun vs => v :: vs

theorem mem_combine {T : List (Nat × α)} {bs : List (Nat × Bool)} {vs : List α}
    (hl : vs.length = bs.length) (h : ∀ (i : Nat) (b : Nat × Bool) (v : α), bs[i]? = some b →
      vs[i]? = some v → (b.1, v) ∈ T) : vs ∈ combine T bs := by
  induction bs generalizing vs with
  | nil =>
    have : vs = [] := List.length_eq_zero_iff.1 hl
    subst this
    exact List.mem_cons_self
  | cons b bs ih =>
    cases vs with
    | nil => simp at hl
    | cons v vs =>
      refine List.mem_flatMap.2 ⟨v, ?_, List.mem_map.2 ⟨vs, ?_, rfl⟩⟩
      · exact List.mem_map.2 ⟨(b.1, v), List.mem_filter.2 ⟨h 0 b v rfl rfl, by simp⟩, rfl⟩
      · exact ih (by simpa using hl) (fun i b' v' h1 h2 => h (i + 1) b' v' h1 h2)

/-- What follows from the messages of `T`. -/
def follow (T : List (Nat × α)) (e : Nat × Kind α) : List (Nat × α) :=
  match e.2 with
  | .join bs t pack => (combine T bs).map fun vs => (t, pack vs)
  | k => ((T.filter fun p => p.1 = e.1).map (·.2)).flatMap (outs k)

theorem comes_table {w : Work α} {x : α} {T : List (Nat × α)} (h0 : (w.entry, x) ∈ T)
    (h1 : ∀ e, e ∈ w.ops → ∀ p, p ∈ follow T e → p ∈ T) {n : Nat} {v : α}
    (h : Comes w x n v) : (n, v) ∈ T := by
  induction h with
  | entry => exact h0
  | send n v k m u _ hk hs ih =>
    refine h1 (n, k) (Flow.mem_of_lookup hk) _ ?_
    have : (m, u) ∈ ((T.filter fun p => p.1 = n).map (·.2)).flatMap (outs k) :=
      List.mem_flatMap.2 ⟨v, List.mem_map.2 ⟨(n, v), List.mem_filter.2 ⟨ih, by simp⟩, rfl⟩,
        mem_outs hs⟩
    cases k with
    | join bs t pack => cases hs
    | _ => exact this
  | join j bs t pack vs hk _ hl _ ih =>
    exact h1 (j, .join bs t pack) (Flow.mem_of_lookup hk) _
      (List.mem_map.2 ⟨vs, mem_combine hl ih, rfl⟩)

/-- The joins of a workflow with their buffers. -/
def joinsOf (w : Work α) : List (Nat × List (Nat × Bool)) :=
  w.ops.filterMap fun e => match e.2 with | .join bs _ _ => some (e.1, bs) | _ => none

theorem mem_joinsOf {w : Work α} {j : Nat} {bs : List (Nat × Bool)} {t : Nat} {pack : List α → α}
    (h : w.ops.lookup j = some (.join bs t pack)) : (j, bs) ∈ joinsOf w :=
  List.mem_filterMap.2 ⟨_, Flow.mem_of_lookup h, rfl⟩

def roomy : Kind α → Bool
  | .buffer r => capacity r ≠ some 0
  | _ => true

theorem Orderly.of {w : Work α} {x : α} {T : List (Nat × α)} (h0 : (w.entry, x) ∈ T)
    (h1 : ∀ e, e ∈ w.ops → ∀ p, p ∈ follow T e → p ∈ T)
    (h2 : ∀ a, a ∈ joinsOf w → ∀ a', a' ∈ joinsOf w → ∀ b, b ∈ a.2 → b.2 = false →
      b.1 ∈ a'.2.map (·.1) → a.1 = a'.1)
    (h3 : ∀ a, a ∈ joinsOf w → ∀ b, b ∈ a.2 → ∀ p, p ∈ T → ∀ q, q ∈ T → p.1 = b.1 → q.1 = b.1 →
      p.2 = q.2)
    (h4 : ∀ e, e ∈ w.ops → roomy e.2 = true) : Orderly w x := by
  refine ⟨?_, ?_, ?_⟩
  · intro j bs t pack j' bs' t' pack' b hj hj' hb hb'
    exact h2 _ (mem_joinsOf hj) _ (mem_joinsOf hj') (b, false) hb rfl hb'
  · rintro b v v' ⟨j, bs, t, pack, hj, hb⟩ hv hv'
    obtain ⟨c, hc, rfl⟩ := List.mem_map.1 hb
    exact h3 _ (mem_joinsOf hj) c hc _ (comes_table h0 h1 hv) _ (comes_table h0 h1 hv') rfl rfl
  · intro b r hb
    have := h4 _ (Flow.mem_of_lookup hb)
    simpa [roomy] using this

def cancels : Kind α → Bool
  | .cancel => true
  | _ => false

theorem Uncancelled.of {w : Work α} {x : α} (h : ∀ e, e ∈ w.ops → cancels e.2 = false) :
    Uncancelled w x := fun n v hn _ => by
  have := h _ (Flow.mem_of_lookup hn)
  simp [cancels] at this

/-- The operations of `S` lie on no loop and are fed only by one another. -/
theorem noLoop_of {net : Flow.Net} (S : List Nat) (rank : Nat → Nat)
    (hS : ∀ n, n ∈ S → ∀ m, m ∈ Flow.feeders net n → m ∈ S ∧ rank m < rank n)
    (hj : ∀ e, e ∈ net.ops → (match e.2 with | .join _ _ => true | _ => false) = true → e.1 ∈ S) :
    Flow.NoLoopIntoJoin net := by
  have acc : ∀ r n, n ∈ S → rank n ≤ r → Acc (fun a b => a ∈ Flow.feeders net b) n := by
    intro r
    induction r with
    | zero =>
      intro n hn hr
      refine ⟨_, fun m hm => ?_⟩
      have := (hS n hn m hm).2
      omega
    | succ r ih =>
      intro n hn hr
      refine ⟨_, fun m hm => ?_⟩
      have := hS n hn m hm
      exact ih m this.1 (by omega)
  intro n bs t h _
  exact acc _ n (hj _ h rfl) (Nat.le_refl _)

/-- What was responded in some execution is computed by the graph, also before the first check of
the scope. -/
theorem comes_of_run {w : Work α} (hw : Wired w.net) (x v : α) (es : List Ev)
    (h : (run w (received w x) es).outcome = some v) : Comes w x w.terminal v := by
  obtain ⟨n, hn, hc⟩ := ((Sound.received hw x).run hw es).outcome v h
  have hm : (n, Flow.Kind.terminate) ∈ w.net.ops :=
    List.mem_map.2 ⟨(n, .terminate), Flow.mem_of_lookup hn, rfl⟩
  have : n = w.terminal := (hw.terminal n).1 hm
  rw [← this]
  exact hc

theorem one_of {w : Work α} {x v : α} {T : List (Nat × α)} (h0 : (w.entry, x) ∈ T)
    (h1 : ∀ e, e ∈ w.ops → ∀ p, p ∈ follow T e → p ∈ T)
    (h2 : ∀ p, p ∈ T → p.1 = w.terminal → p.2 = v) (u : α) (h : Comes w x w.terminal u) : u = v :=
  h2 _ (comes_table h0 h1 h) rfl

/-- Nothing is left to do at the operations of the workflow, so nothing is. -/
theorem rests_of {w : Work α} (hw : Wired w.net) {x : α} {es : List Ev}
    (h : Flow.rests w.net (run w (start w x) es).flat = true) : Rests (run w (start w x) es) := by
  obtain ⟨fes, _, hf⟩ := C123_refines w hw x es
  rw [hf] at h
  have hq := Flow.quiescent_of h
  rw [← hf] at hq
  obtain ⟨h1, h2, _, _, h3⟩ := hq
  refine ⟨fun n => ?_, fun n => ?_, fun n => List.length_eq_zero_iff.1 (h2 n), h3⟩
  · have : ((run w (start w x) es).pending n).length + (run w (start w x) es).wakes n = 0 := h1 n
    exact List.length_eq_zero_iff.1 (by omega)
  · have : ((run w (start w x) es).pending n).length + (run w (start w x) es).wakes n = 0 := h1 n
    omega

end

instance : DecidablePred Kept := fun e => by cases e <;> unfold Kept <;> infer_instance

/-! ### A workflow that meets the conditions -/

/-- The request goes to two nodes (1, 2) whose tasks respond; node 1 also streams numbers to node
9. The results are joined (5), one of them as a copy, and added up, and an odd sum is made even in
the loop of 6 and 8. -/
def sums : Work Nat where
  ops := [(0, .fork [1, 2] (fun _ v => v)), (1, .node true (· + 1) 3 [9] (fun v => [[v, v + 7]])),
    (2, .node true (· * 2) 4 [] (fun _ => [])), (3, .buffer .keepAll), (4, .buffer (.keepLast 1)),
    (5, .join [(3, false), (4, true)] 6 List.sum),
    (6, .branch 7 8 (fun v => if v % 2 = 0 then .inl v else .inr v)), (7, .terminate),
    (8, .node false (· + 1) 6 [] (fun _ => [])), (9, .node false id 10 [] (fun _ => [])),
    (10, .unused)]
  entry := 0
  terminal := 7

theorem sums_wired : Wired sums.net := Wired.of (by decide) (by decide) (by decide) (by decide) rfl

theorem sums_loops : Flow.NoLoopIntoJoin sums.net :=
  noLoop_of [0, 1, 2, 3, 4, 5] id (by decide) (by decide)

/-- What the graph computes from 4. -/
def sumsTable : List (Nat × Nat) :=
  [(0, 4), (1, 4), (2, 4), (3, 5), (4, 8), (9, 4), (9, 11), (10, 4), (10, 11), (6, 13), (8, 13),
    (6, 14), (7, 14)]

theorem sums_orderly : Orderly sums 4 :=
  .of (T := sumsTable) (by decide) (by decide) (by decide) (by decide) (by decide)

theorem sums_uncancelled : Uncancelled sums 4 := .of (by decide)

/-- An order of execution in which task 2 ends first. -/
def sumsRun : List Ev :=
  [.exec 0, .exec 2, .exec 1, .finish 2 0, .exec 4, .exec 5, .item 1 0 0, .exec 9, .item 1 0 0,
    .finish 1 0, .exec 3, .check, .exec 5, .exec 6, .exec 8, .check, .exec 6, .exec 7]

theorem sums_comes : Comes sums 4 sums.terminal 14 :=
  comes_of_run sums_wired 4 14 sumsRun (by decide +kernel)

theorem sums_one : ∀ u, Comes sums 4 sums.terminal u → u = 14 :=
  one_of (T := sumsTable) (by decide) (by decide) (by decide)

/-- The theorems apply, and the execution meets their conditions: it is over. -/
example : (run sums (start sums 4) sumsRun).outcome = some 14 ∧
    Over (run sums (start sums 4) sumsRun) :=
  have h : (run sums (start sums 4) sumsRun).status = .terminated := by decide +kernel
  have hover : Over (run sums (start sums 4) sumsRun) := Or.inl (by rw [h]; decide)
  ⟨C123_partial sums sums_wired sums_loops 4 14 sums_orderly sums_uncancelled sums_comes sums_one
    sumsRun (by decide +kernel) hover, hover⟩

/-- While task 1 runs, the session can still respond. -/
example : (run sums (start sums 4) (sumsRun.take 7)).status = .active ∧
    ∃ es' u, (∀ e, e ∈ es' → Kept e) ∧
      (run sums (start sums 4) (sumsRun.take 7 ++ es')).outcome = some u ∧
      Comes sums 4 sums.terminal u :=
  ⟨by decide +kernel, C123_possible_partial sums sums_wired sums_loops 4 sums_orderly
    sums_uncancelled 14 sums_comes (sumsRun.take 7) (by decide +kernel)⟩

/-- Another order of execution; `C123_determined` applies to both. -/
example : (run sums (start sums 4) [.exec 0, .exec 1, .item 1 0 0, .item 1 0 0, .finish 1 0,
      .exec 3, .check, .exec 2, .finish 2 0, .exec 4, .exec 5, .exec 5, .exec 6, .exec 8, .exec 6,
      .exec 7]).outcome = some 14 ∧
    ∀ u u', Comes sums 4 sums.terminal u → Comes sums 4 sums.terminal u' → u = u' :=
  ⟨by decide +kernel, fun u u' h h' => (sums_one u h).trans (sums_one u' h').symm⟩

/-- When a task is dropped the workflow is cancelled; `C123_sound` allows for it. -/
example : (run sums (start sums 4) [.exec 0, .exec 1, .exec 2, .lose 2 0, .check]).status =
    .cancelled := by decide +kernel

/-! ### The conditions are needed -/

/-- Two joins (4, 5) pull from buffer 1. -/
def shared : Work Nat where
  ops := [(0, .fork [1, 2, 3] (fun i v => v + i)), (1, .buffer .keepAll), (2, .buffer .keepAll),
    (3, .buffer .keepAll), (4, .join [(1, false), (2, false)] 7 List.sum),
    (5, .join [(1, false), (3, false)] 6 List.sum), (6, .unused), (7, .terminate)]
  entry := 0
  terminal := 7

def sharedTable : List (Nat × Nat) := [(0, 4), (1, 4), (2, 5), (3, 6), (7, 9), (6, 10)]

/-- A workflow that responds in one order of execution waits for ever in another, because a join
that the terminal does not need took the value first. -/
theorem C123_shared_buffer_violated : ¬ C123_full ∧
    (run shared (start shared 4) [.exec 0, .exec 1, .exec 2, .exec 3, .exec 4, .exec 7]).outcome =
      some 9 := by
  have hw : Wired shared.net := Wired.of (by decide) (by decide) (by decide) (by decide) rfl
  refine ⟨fun h => ?_, by decide +kernel⟩
  have := h shared 4 9 hw (.of (by decide))
    (comes_of_run hw 4 9 [.exec 0, .exec 1, .exec 2, .exec 3, .exec 4, .exec 7] (by decide +kernel))
    (one_of (T := sharedTable) (by decide) (by decide) (by decide))
    [.exec 0, .exec 1, .exec 3, .exec 5, .exec 2, .exec 4, .exec 4, .exec 5]
    (by decide) (Or.inr (rests_of hw (by decide +kernel)))
  revert this
  decide +kernel

/-- The loop of 3 and 4 feeds both buffers of a join, as `Flow.loopJoin`; the branch leaves it at
once. -/
def looping : Work Nat where
  ops := [(0, .join [(1, false), (2, false)] 6 List.sum), (1, .buffer .keepAll),
    (2, .buffer .keepAll), (3, .fork [1, 4] (fun _ v => v)), (4, .branch 3 2 .inr),
    (5, .node false (· + 1) 3 [] (fun _ => [])), (6, .terminate)]
  entry := 5
  terminal := 6

def loopingTable : List (Nat × Nat) := [(5, 4), (3, 5), (1, 5), (4, 5), (2, 5), (6, 10)]

/-- A workflow whose joins do not race, but into whose join a loop leads, is cancelled as soon as it
begins, although the graph computes a response and every message of it would be delivered. -/
theorem C123_loop_violated : ¬ C123_full ∧ Orderly looping 4 ∧
    (start looping 4).status = .cancelled ∧
    (run looping (received looping 4) [.exec 5, .exec 3, .exec 1, .exec 4, .exec 2, .exec 0,
      .exec 6]).outcome = some 10 := by
  have hw : Wired looping.net := Wired.of (by decide) (by decide) (by decide) (by decide) rfl
  refine ⟨fun h => ?_, .of (T := loopingTable) (by decide) (by decide) (by decide) (by decide)
    (by decide), by decide +kernel, by decide +kernel⟩
  have := h looping 4 10 hw (.of (by decide))
    (comes_of_run hw 4 10 [.exec 5, .exec 3, .exec 1, .exec 4, .exec 2, .exec 0, .exec 6]
      (by decide +kernel))
    (one_of (T := loopingTable) (by decide) (by decide) (by decide)) []
    (by decide) (Or.inl (by decide +kernel))
  revert this
  decide +kernel

/-- Node 1 sends two values to buffer 3, which keeps one, and 5 accepts a sum that the join can
make with the first of them only. -/
def hurried : Work Nat where
  ops := [(0, .fork [1, 2] (fun _ v => v)), (1, .spread 3 (fun v => [v, v + 1])),
    (2, .buffer .keepAll), (3, .buffer (.keepLast 1)),
    (4, .join [(3, false), (2, false)] 5 List.sum),
    (5, .filter 6 (fun v => if v % 2 = 0 then some v else none)), (6, .terminate)]
  entry := 0
  terminal := 6

def hurriedTable : List (Nat × Nat) :=
  [(0, 4), (1, 4), (2, 4), (3, 4), (3, 5), (5, 8), (5, 9), (6, 8)]

/-- A workflow responds or is cancelled, depending on whether the join is executed before the second
value replaces the first one. -/
theorem C123_replaced_violated : ¬ C123_full ∧
    (run hurried (start hurried 4) [.exec 0, .exec 1, .exec 2, .exec 3, .exec 4, .exec 4, .exec 5,
      .exec 6]).outcome = some 8 ∧
    (run hurried (start hurried 4) [.exec 0, .exec 1, .exec 2, .exec 3, .exec 3, .exec 4, .exec 5,
      .check]).status = .cancelled := by
  have hw : Wired hurried.net := Wired.of (by decide) (by decide) (by decide) (by decide) rfl
  refine ⟨fun h => ?_, by decide +kernel, by decide +kernel⟩
  have := h hurried 4 8 hw (.of (by decide))
    (comes_of_run hw 4 8 [.exec 0, .exec 1, .exec 2, .exec 3, .exec 4, .exec 4, .exec 5, .exec 6]
      (by decide +kernel))
    (one_of (T := hurriedTable) (by decide) (by decide) (by decide))
    [.exec 0, .exec 1, .exec 2, .exec 3, .exec 3, .exec 4, .exec 5, .check]
    (by decide) (Or.inl (by decide +kernel))
  revert this
  decide +kernel

/-- Two nodes of which the faster one responds. -/
def racing : Work Nat where
  ops := [(0, .fork [1, 2] (fun _ v => v)), (1, .node true (· + 1) 3 [] (fun _ => [])),
    (2, .node true (· * 2) 3 [] (fun _ => [])), (3, .terminate)]
  entry := 0
  terminal := 3

/-- When the graph computes several responses the order of execution decides; this is how a race
between two nodes is meant. -/
example : (run racing (start racing 4) [.exec 0, .exec 1, .exec 2, .finish 1 0, .exec 3]).outcome =
      some 5 ∧
    (run racing (start racing 4) [.exec 0, .exec 1, .exec 2, .finish 2 0, .exec 3]).outcome =
      some 8 := by
  decide +kernel

end Verif.Values
