import Verif.Values.EndProps
import Verif.Values.Witness

/-
Workflows that meet the hypotheses of the theorems of EndProps.lean, and workflows that show that
their conditions are needed.
-/
namespace Verif.Values

open Flow (Wired)

section
variable {α : Type}

theorem Layered.of {w : Work α} (depth : Nat → Nat)
    (h1 : ∀ e, e ∈ w.ops → ∀ m, m ∈ e.2.shape.targets → depth e.1 < depth m)
    (h2 : ∀ a, a ∈ joinsOf w → ∀ b, b ∈ a.2 → depth b.1 < depth a.1)
    (h3 : ∀ e, e ∈ w.ops → ∀ m, m ∈ e.2.shape.targets → m ∉ (joinsOf w).map (·.1))
    (h4 : w.entry ∉ (joinsOf w).map (·.1)) : Layered w := by
  refine ⟨⟨depth, ?_, ?_⟩, ?_, ?_⟩
  · intro n k m hk hm
    exact h1 _ (Flow.mem_of_lookup hk) m hm
  · intro j bs t pack b hk hb
    exact h2 _ (mem_joinsOf hk) b hb
  · intro n k m hk hm bs t pack hj
    exact h3 _ (Flow.mem_of_lookup hk) m hm (List.mem_map.2 ⟨_, mem_joinsOf hj, rfl⟩)
  · intro bs t pack hj
    exact h4 (List.mem_map.2 ⟨_, mem_joinsOf hj, rfl⟩)

theorem over_final {w : Work α} {s : State α} (h : Over s) (e : Ev) : step w s e = s := by
  rcases h with h | h
  · unfold step
    rw [if_pos h]
  · exact rest_final h [e]

/-- The schedule that begins with `es`. -/
def first (es : List Ev) (n : Nat) : Ev := (es[n]?).getD .check

theorem first_after {w : Work α} {x : α} {es : List Ev} (h : Over (run w (start w x) es)) (n : Nat)
    (hn : es.length ≤ n) : after w x (first es) n = run w (start w x) es := by
  induction n with
  | zero =>
    have : es = [] := List.length_eq_zero_iff.1 (by omega)
    subst this
    rfl
  | succ n ih =>
    by_cases he : es.length = n + 1
    · unfold after
      congr 1
      refine List.ext_getElem (by simp [he]) fun i h1 h2 => ?_
      simp [first, h2]
    · rw [after_succ, ih (by omega)]
      exact over_final h _

/-- A schedule that begins with events after which the session is over. -/
theorem Progress.of {w : Work α} {x : α} {es : List Ev} (hk : ∀ e, e ∈ es → Kept e)
    (h : Over (run w (start w x) es)) : Progress w x (first es) := by
  refine ⟨fun n => ?_, fun n e _ hne => ?_⟩
  · unfold first
    cases he : es[n]? with
    | none => trivial
    | some e => exact hk e (List.mem_of_getElem? he)
  · have hend := first_after h (n + es.length) (by omega)
    refine ⟨n + es.length, by omega, fun heq => hne ?_⟩
    rw [← heq, hend]
    exact over_final h e

end

/-- As `sums`, without a loop. -/
def tree : Work Nat where
  ops := [(0, .fork [1, 2] (fun _ v => v)), (1, .node true (· + 1) 3 [9] (fun v => [[v, v + 7]])),
    (2, .node true (· * 2) 4 [] (fun _ => [])), (3, .buffer .keepAll), (4, .buffer (.keepLast 1)),
    (5, .join [(3, false), (4, false)] 6 List.sum),
    (6, .filter 7 (fun v => if v % 2 = 0 then none else some v)), (7, .terminate),
    (9, .node false id 10 [] (fun _ => [])), (10, .unused)]
  entry := 0
  terminal := 7

theorem tree_wired : Wired tree.net := Wired.of (by decide) (by decide) (by decide) (by decide) rfl

theorem tree_layered : Layered tree := .of id (by decide) (by decide) (by decide) (by decide)

def treeTable : List (Nat × Nat) :=
  [(0, 4), (1, 4), (2, 4), (3, 5), (4, 8), (9, 4), (9, 11), (10, 4), (10, 11), (6, 13), (7, 13)]

theorem tree_orderly : Orderly tree 4 :=
  .of (T := treeTable) (by decide) (by decide) (by decide) (by decide) (by decide)

theorem tree_private : Flow.Private tree.net := by
  refine ⟨?_, ?_, ?_, ?_, ?_, ?_⟩
  · intro n t ss h; simp [tree, Work.net, Kind.shape] at h
  · intro n h; simp [tree, Work.net, Kind.shape, capacity] at h
  · intro n bs t h b hb
    simp [tree, Work.net, Kind.shape] at h
    obtain ⟨rfl, rfl, rfl⟩ := h
    revert b
    decide
  · intro n bs t n' bs' t' h h' hne
    simp [tree, Work.net, Kind.shape] at h h'
    exact absurd (h.1.trans h'.1.symm) hne
  · intro n o bs t h; simp [tree, Work.net, Kind.shape] at h
  · intro n l bs t h; simp [tree, Work.net, Kind.shape] at h

def treeRun : List Ev :=
  [.exec 0, .exec 2, .exec 1, .finish 2 0, .exec 4, .exec 5, .item 1 0 0, .exec 9, .item 1 0 0,
    .finish 1 0, .exec 3, .check, .exec 5, .exec 6, .exec 7]

theorem tree_comes : Comes tree 4 tree.terminal 13 :=
  comes_of_run tree_wired 4 13 treeRun (by decide +kernel)

theorem tree_progress : Progress tree 4 (first treeRun) :=
  .of (by decide) (Or.inl (by decide +kernel))

/-- All theorems apply to the request 4. -/
example : ∃ N, ∀ n, N ≤ n → (after tree 4 (first treeRun) n).outcome = some 13 :=
  C124_responds tree tree_wired tree_layered 4 13 tree_orderly (.of (by decide)) tree_comes
    (one_of (T := treeTable) (by decide) (by decide) (by decide)) _ tree_progress

example : ∃ N, ∀ n, N ≤ n → (after tree 4 (first treeRun) n).status ≠ .active :=
  C124_partial tree tree_wired tree_layered tree_private 4 _ tree_progress

/-- What the graph computes from 5: the sum is even, and there is no response. -/
def treeTable' : List (Nat × Nat) :=
  [(0, 5), (1, 5), (2, 5), (3, 6), (4, 10), (9, 5), (9, 12), (10, 5), (10, 12), (6, 16)]

example : ∃ N, ∀ n, N ≤ n →
    (after tree 5 (first (treeRun ++ [.check, .check])) n).status = .cancelled :=
  C124_cancelled_partial tree tree_wired tree_layered tree_private 5
    (fun v h => by
      have hm := comes_table (T := treeTable') (by decide) (by decide) h
      have : ∀ p, p ∈ treeTable' → p.1 ≠ tree.terminal := by decide
      exact this _ hm rfl)
    _ (.of (by decide) (Or.inl (by decide +kernel)))

/-- A workflow without loops in which two joins share a buffer waits for ever: the join that comes
too late is not disposed of. -/
theorem C124_shared_buffer_violated : ¬ C124_full ∧ Layered shared := by
  have hw : Wired shared.net := Wired.of (by decide) (by decide) (by decide) (by decide) rfl
  have hl : Layered shared := .of id (by decide) (by decide) (by decide) (by decide)
  refine ⟨fun h => ?_, hl⟩
  have hover : Over (run shared (start shared 4) [.exec 0, .exec 1, .exec 3, .exec 5, .exec 2,
      .exec 4, .exec 4, .exec 5]) := Or.inr (rests_of hw (by decide +kernel))
  have hact : (run shared (start shared 4) [.exec 0, .exec 1, .exec 3, .exec 5, .exec 2,
      .exec 4, .exec 4, .exec 5]).status = .active := by decide +kernel
  have hp : Progress shared 4 (first [.exec 0, .exec 1, .exec 3, .exec 5, .exec 2, .exec 4, .exec 4,
      .exec 5]) := .of (by decide) hover
  obtain ⟨N, hN⟩ := h shared 4 hw hl _ hp
  have hend := first_after hover (N + 8) (by simp)
  have hstay : ∀ d, after shared 4 (first [.exec 0, .exec 1, .exec 3, .exec 5, .exec 2, .exec 4,
      .exec 4, .exec 5]) (N + d) = after shared 4 (first [.exec 0, .exec 1, .exec 3, .exec 5,
      .exec 2, .exec 4, .exec 4, .exec 5]) N := by
    intro d
    induction d with
    | zero => rfl
    | succ d ih =>
      rw [show N + (d + 1) = N + d + 1 from rfl, after_succ, ih]
      exact over_final (Or.inl hN) _
  rw [hstay 8] at hend
  rw [hend] at hN
  exact hN hact

/-- The branch leads back to itself for ever. -/
def endless : Work Nat where
  ops := [(0, .branch 1 0 .inr), (1, .terminate)]
  entry := 0
  terminal := 1

/-- A workflow with a loop can run for ever, so the condition of `C124_settles` is needed. -/
example : ∀ n, (after endless 4 (fun _ => .exec 0) n).status = .active ∧
    (after endless 4 (fun _ => .exec 0) n).checks = n := by
  have key : ∀ n, (after endless 4 (fun _ => .exec 0) n).status = .active ∧
      (after endless 4 (fun _ => .exec 0) n).checks = n ∧
      (after endless 4 (fun _ => .exec 0) n).pending 0 = [4] := by
    intro n
    induction n with
    | zero => exact ⟨by decide +kernel, by decide +kernel, by decide +kernel⟩
    | succ n ih =>
      obtain ⟨h1, h2, h3⟩ := ih
      rw [after_succ]
      rw [step_exec (w := endless) (k := .branch 1 0 .inr) h1 rfl (by simp) h3]
      refine ⟨h1, ?_, ?_⟩
      · show (after endless 4 (fun _ => .exec 0) n).checks + 1 = n + 1
        rw [h2]
      · show put (put (after endless 4 (fun _ => .exec 0) n).pending 0 []) 0
          (put (after endless 4 (fun _ => .exec 0) n).pending 0 [] 0 ++ [4]) 0 = [4]
        simp [put]
  exact fun n => ⟨(key n).1, (key n).2.1⟩

end Verif.Values
