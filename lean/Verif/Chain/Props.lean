import Verif.Chain.Lemmas

/-
C94. A chain does with every message what its combinators say.
-/
namespace Verif.Chain

variable {V : Type}

/-- Every one of the picks takes a message that is under way. -/
def Picks (w : W V) : St V → List Nat → Prop
  | _, [] => True
  | s, i :: is => i < s.moving.length ∧ Picks w (step w s i) is

/-- C94: whatever order the messages are dealt with in, once none is under way exactly what
the chain means has been observed. -/
theorem C94_outcome (c : Chain V) (v : V) (is : List Nat)
    (hdone : (run (built c) (sent (built c) v) is).moving = []) :
    (run (built c) (sent (built c) v) is).seen.Perm (means c v) := by
  obtain ⟨js, h1, h2, _⟩ := (run_inv is (start_inv c v)).inv
  have hj : js = [] := by
    rw [hdone] at h1
    exact List.map_eq_nil_iff.mp h1.symm
  subst hj
  simpa using h2.symm

/-- C94: at any time, only what the chain means has been observed, none of it too often. -/
theorem C94_only (c : Chain V) (v : V) (is : List Nat) :
    ∃ rest, (means c v).Perm ((run (built c) (sent (built c) v) is).seen ++ rest) := by
  obtain ⟨js, _, h2, _⟩ := (run_inv is (start_inv c v)).inv
  exact ⟨_, h2⟩

/-- C94: it ends. There is a number of steps that no execution exceeds. -/
theorem C94_ends (c : Chain V) (v : V) :
    ∃ n, ∀ is, Picks (built c) (sent (built c) v) is → is.length ≤ n := by
  refine ⟨cost c v, fun is => ?_⟩
  have : ∀ (is : List Nat) (n : Nat) (s : St V), Inv (built c) (means c v) n s →
      Picks (built c) s is → is.length ≤ n := by
    intro is
    induction is with
    | nil => intro n s _ _; exact Nat.zero_le _
    | cons i is ih =>
      intro n s h hp
      obtain ⟨h1, h2⟩ := step_inv h i hp.1
      have := ih _ _ h2 hp.2
      simp only [List.length_cons]
      omega
  exact this is _ _ (start_inv c v)

/-- C94: any execution can be continued until no message is under way. -/
theorem C94_continues (c : Chain V) (v : V) (is : List Nat) :
    ∃ js, (run (built c) (sent (built c) v) (is ++ js)).moving = [] := by
  have : ∀ (n : Nat) (s : St V), Inv (built c) (means c v) n s →
      ∃ js, (run (built c) s js).moving = [] := by
    intro n
    induction n with
    | zero =>
      intro s h
      by_cases hm : 0 < s.moving.length
      · exact absurd (step_inv h 0 hm).1 (by omega)
      · exact ⟨[], List.eq_nil_of_length_eq_zero (by simp only [run, List.foldl_nil]; omega)⟩
    | succ n ih =>
      intro s h
      by_cases hm : 0 < s.moving.length
      · obtain ⟨js, hj⟩ := ih _ (step_inv h 0 hm).2
        exact ⟨0 :: js, hj⟩
      · exact ⟨[], List.eq_nil_of_length_eq_zero (by simp only [run, List.foldl_nil]; omega)⟩
  obtain ⟨js, hj⟩ := this _ _ (run_inv is (start_inv c v))
  exact ⟨js, by simpa only [run, List.foldl_append] using hj⟩

/-! A chain over lists of numbers with several of the combinators: every element is cloned; one
branch is filtered, the other is forked on whether it is small. -/

def sampleView (v : List Nat) : Except (List Nat) (List Nat) :=
  match v with
  | [n] => if n < 10 then .ok [n + 100] else .error [n + 200]
  | v => .error v

def sampleChain : Chain (List Nat) :=
  .spread (fun v => v.map fun n => [n])
    (.branchClone
      (.cancellationFilter (fun v => v.map (· + 1)) (fun v => if v = [4] then none else some v)
        (.connect 7))
      (.connectOnErr sampleView (0 :: ·) 8 (.map (1 :: ·) (.forkClone
        (.cons (.connect 9) (.cons .unused (.cons (.thenCancel id) .nil)))))))

def sampleRun (is : List Nat) : St (List Nat) :=
  run (built sampleChain) (sent (built sampleChain) [3, 12]) is

/-- In order, and with the last message first: both end with no message under way, and a
message arrived at 7, one at 8, one at 9, and there were two cancellations. -/
example :
    (sampleRun (List.replicate 17 0)).moving = []
      ∧ (sampleRun [0, 1, 2, 2, 2, 1, 1, 0, 0, 0, 0, 0, 0, 0, 0, 0, 0]).moving = []
      ∧ ((sampleRun (List.replicate 17 0)).seen.filterMap fun
          | .arrive s x => some (s, x)
          | _ => none) = [(8, [0, 212]), (7, [13]), (9, [1, 103])]
      ∧ (sampleRun (List.replicate 17 0)).seen.length = 7 := by
  refine ⟨rfl, rfl, by decide, rfl⟩

example : Picks (built sampleChain) (sent (built sampleChain) [3, 12]) [0, 1, 0, 2] :=
  ⟨by decide, by decide, by decide, by decide, trivial⟩

end Verif.Chain
