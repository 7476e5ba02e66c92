import Verif.Many.Props
import Verif.Flow.Witness

/-
Workflows with several sessions that meet the hypotheses of the theorems of Props.lean, and one
that shows that the connections have to exist.
-/
namespace Verif.Many

open Flow (Net retry retry_wired retry_private looped looped_wired)

/-- Two sessions of `retry` in a mix: session 1 goes through its loop once more, session 2 loses
its task. -/
def mixed : List Ev :=
  [.start 1, .exec 0 [], .start 2, .exec 1 [], .exec 0 [], .exec 2 [], .finish 1 1, .exec 2 [],
    .exec 1 [], .finish 2 2, .finish 1 2, .exec 4 [], .exec 3 [], .exec 4 [], .exec 6 [],
    .exec 6 [], .exec 6 [], .exec 7 [1], .check, .lose 2 1, .exec 0 []]

/-- The hypothesis of `C117_sessions_apart` holds for both sessions; the events of each are not
those of the other. -/
example : (run retry empty mixed).status 1 = some .active ∧
    (run retry empty mixed).status 2 = some .active ∧
    mine retry 1 empty mixed = [.exec 0 [], .exec 1 [], .exec 2 [], .finish 1, .finish 2,
      .exec 3 [], .exec 4 [], .exec 6 [], .exec 6 [], .exec 7 [1], .check, .exec 0 []] ∧
    mine retry 2 empty mixed = [.exec 0 [], .exec 2 [], .exec 1 [], .finish 2, .exec 4 [],
      .exec 6 [], .lose 1] := by
  decide +kernel

/-- Session 2 is cancelled when the scope is told of its task, session 1 goes on and terminates. -/
def ending : List Ev :=
  [.check, .check, .exec 1 [], .exec 2 [], .finish 1 1, .finish 1 2, .exec 3 [], .exec 4 [],
    .exec 6 [], .exec 6 [], .check, .exec 7 [0], .check, .exec 9 []]

example : (run retry empty (mixed ++ ending)).status 1 = some .terminated ∧
    (run retry empty (mixed ++ ending)).status 2 = some .cancelled := by
  decide +kernel

/-- The hypothesis of `C117_not_held_up` holds in the middle of it for a third session. -/
example : (run retry empty mixed).status 3 = none := by decide +kernel

/-- The hypotheses of `C117_same_futures` hold: session 1 with session 2 in the way and without. -/
example : (run retry empty [.start 1, .start 2, .exec 0 []]).status 1 = some .active ∧
    (run retry empty [.start 1, .exec 0 []]).status 1 = some .active ∧
    (run retry empty [.start 1, .start 2, .exec 0 []]).queue 0 = [2] ∧
    (run retry empty [.start 1, .start 2, .exec 0 []]).of 1 =
      (run retry empty [.start 1, .exec 0 []]).of 1 := by
  refine ⟨by decide +kernel, by decide +kernel, by decide +kernel, ?_⟩
  have h1 := (C117_sessions_apart retry retry_wired [.start 1, .start 2, .exec 0 []] 1
    (by decide +kernel)).2 (by decide +kernel)
  have h2 := (C117_sessions_apart retry retry_wired [.start 1, .exec 0 []] 1
    (by decide +kernel)).2 (by decide +kernel)
  have e : mine retry 1 empty [.start 1, .start 2, .exec 0 []] =
      mine retry 1 empty [.start 1, .exec 0 []] := by decide +kernel
  rw [h1, h2, e]

theorem clean_rests {net : Net} {W : Multi} {x : Nat} (h : W.status x ≠ none)
    (h' : W.status x ≠ some .active) (hk : ∀ n, W.keys n x = 0) (hd : ∀ n, W.dropping n x = 0)
    (hc : x ∉ W.disposed) : Resting (step net W (.clean x)) x := by
  have he : step net W (.clean x) = { W with
      queue := fun m => (W.queue m).filter (· ≠ x)
      tasks := fun m => (W.tasks m).filter (· ≠ x)
      held := part W.held x fun _ => 0
      made := part W.made x fun _ => false
      gates := part W.gates x fun _ => none } := by
    simp only [step]
    rw [if_neg (by simp [Multi.active, h, h'])]
  rw [he]
  refine ⟨fun n hm => ?_, fun n hm => ?_, hk, hd, hc⟩
  · simp at hm
  · simp at hm

/-- The hypotheses of `C78_every_session_partial` hold for session 2, while session 1 is still
active. -/
example : (∀ e, e ∈ mixed ++ [.check, .clean 2] → Calm retry e) ∧
    Resting (run retry empty (mixed ++ [.check, .clean 2])) 2 ∧
    (run retry empty (mixed ++ [.check, .clean 2])).status 1 = some .active := by
  refine ⟨?_, ?_, by decide +kernel⟩
  · intro e he
    simp only [mixed, List.cons_append, List.nil_append, List.mem_cons, List.not_mem_nil,
      or_false] at he
    repeat (rcases he with rfl | he; · trivial)
  · have e : run retry empty (mixed ++ [.check, .clean 2]) =
        step retry (run retry empty (mixed ++ [.check])) (.clean 2) := by
      simp [run, List.foldl_append]
    rw [e]
    have hs : (run retry empty (mixed ++ [.check])).status 2 = some .cancelled := by
      decide +kernel
    refine clean_rests (by rw [hs]; simp) (by rw [hs]; simp) (fun n => ?_) (fun n => ?_)
      (by decide +kernel)
    · rfl
    · rfl

/-- Two sessions of `looped`; the filter has dropped the value of session 2. -/
def dropped : List Ev :=
  [.start 1, .start 2, .exec 0 [], .exec 0 [], .exec 1 [], .exec 1 [], .exec 2 [], .exec 2 [],
    .exec 6 [], .exec 6 [], .exec 6 [], .exec 6 [], .exec 7 [1], .exec 7 [1], .check, .check,
    .exec 8 [1], .exec 8 [0]]

/-- The hypotheses of `C79_every_session_partial` hold: session 2 is cancelled, and session 1 is
not. -/
example : (run looped empty dropped).status 2 = some .active ∧
    (run looped empty dropped).disposed.head? = some 2 ∧
    (step looped (run looped empty dropped) .check).status 2 = some .cancelled ∧
    (run looped empty (dropped ++ [.check, .exec 9 []])).status 1 = some .terminated := by
  decide +kernel

/-- The target of the branch at 0 does not exist. -/
def missing : Net where
  ops := [(0, .branch 1 7), (1, .node true 2 []), (2, .terminate)]
  entry := 0
  terminal := 2

/-- C117 needs the connections: if an operation sends to something that does not exist, which only
a despawned entity can be, every session of the workflow is cancelled, while session 1 alone would
have terminated. -/
theorem C117_missing_target_ends_all :
    (run missing empty [.start 1, .exec 0 [], .exec 1 [], .start 2, .exec 0 [1],
      .finish 1 1, .exec 2 []]).status 1 = some .cancelled ∧
    (Flow.run missing (Flow.start missing) (mine missing 1 empty [.start 1, .exec 0 [], .exec 1 [],
      .start 2, .exec 0 [1], .finish 1 1, .exec 2 []])).status = .active ∧
    (run missing empty [.start 1, .exec 0 [], .exec 1 [],
      .finish 1 1, .exec 2 []]).status 1 = some .terminated := by
  decide +kernel

end Verif.Many
