import Verif.Trim.Model
import Verif.Graph.Spec

/-
Specification for C40, C41 and C68.
-/
namespace Verif.Trim

/-- A walk along connections from `a` to a node. It only goes on from nodes that satisfy
`leave` and only enters nodes that satisfy `enter`. -/
inductive Walk (E : Nat → List Nat) (leave enter : Nat → Prop) (a : Nat) : Nat → Prop where
  | here : Walk E leave enter a a
  | step {p n : Nat} : Walk E leave enter a p → leave p → n ∈ E p → enter n →
      Walk E leave enter a n

/-- `n` lies on a walk from `a` to `b` that ends when it first meets `b` and does not enter
nodes of `avoid`. -/
def OnWalk (E : Nat → List Nat) (avoid : Nat → Prop) (a b n : Nat) : Prop :=
  Walk E (· ≠ b) (fun m => ¬ avoid m) a n ∧ Walk E (· ≠ b) (fun m => ¬ avoid m) n b

/-- `n` lies between the entry of the scope and the operation `a`. -/
def Between (E : Nat → List Nat) (entry a n : Nat) : Prop :=
  n ≠ a ∧ OnWalk E (fun _ => False) entry a n

/-- What a downstream branch should trim: all that can be reached from its start without
entering nodes between the entry of the scope and the start. -/
def DownstreamSpec (E : Nat → List Nat) (entry a n : Nat) : Prop :=
  Walk E (fun _ => True) (fun m => ¬ Between E entry a m) a n

/-- What a span should trim: all that lies on a way from its start to its end, without
entering nodes between the entry of the scope and the start. -/
def SpanSpec (E : Nat → List Nat) (entry a b n : Nat) : Prop :=
  OnWalk E (Between E entry a) a b n

/-- What the operations of a branch should be. -/
def BranchSpec (E : Nat → List Nat) (entry : Nat) (b : Branch) (n : Nat) : Prop :=
  match b.policy with
  | .downstream => DownstreamSpec E entry b.start.id n ∧ (b.start.inclusive ∨ n ≠ b.start.id)
  | .span ends => ∃ q ∈ ends, SpanSpec E entry b.start.id q.id n ∧
      (b.start.inclusive ∨ n ≠ b.start.id) ∧ (q.inclusive ∨ n ≠ q.id)

/-- A span can be walked from its start to each of its ends. -/
def Valid (E : Nat → List Nat) (entry : Nat) (b : Branch) : Prop :=
  match b.policy with
  | .downstream => True
  | .span ends => ∀ q ∈ ends, Walk E (fun _ => True)
      (fun m => ¬ Between E entry b.start.id m) b.start.id q.id

/-- The messages that entered a trim. -/
def entered : List Op → List (Nat × Nat)
  | [] => []
  | .input s d :: ops => (s, d) :: entered ops
  | _ :: ops => entered ops

/-- What a cleaner removes from a trim during a run: the messages of the session that wait or
are held. -/
def dropped (c : Config) : State → List Op → List (Nat × Nat)
  | _, [] => []
  | st, op :: ops =>
    (match op with
      | .clean s => (st.inputs.filter fun i => i.1 = s) ++
          (st.holding.filter fun h => h.2.1 = s).map (·.2)
      | _ => []) ++ dropped c (st.step c op) ops

/-- While the cleanup `id` of operation `n` in session `s` was going on, `n` reported back. -/
def Told (c : Config) (ops : List Op) (id n s : Nat) : Prop :=
  ∃ pre post, ops = pre ++ Op.report id n :: post ∧ (id, n, s) ∈ (run c pre).cleaning

end Verif.Trim
