import Verif.Trace.Model

/-
What is claimed about traces.
-/
namespace Verif.Trace

open Verif.Input Verif.Flush

/-- `st` is the stack of session `s`: it begins with a session that has no parent, each further
one is a child of the one before, and `s` is the last. -/
structure IsStack (parent : Nat → Option Nat) (s : Nat) (st : List Nat) : Prop where
  last : st.getLast? = some s
  root : ∃ r, st.head? = some r ∧ parent r = none
  child : ∀ i a b, st[i]? = some a → st[i + 1]? = some b → parent b = some a

/-- The sessions have come about by the operations of the code. -/
def Forest.Grown (f : Forest) : Prop := ∃ ops, f = Forest.empty.applyAll ops

variable {E T U I J X : Type} [DecidableEq E]

/-- The operation that is executed in the next step of the flush, with the input it takes. -/
def taking (s : St (Sched.World E Nat T U) E) : Option (E × Inp Nat T) :=
  match s.phase, s.roster.queue with
  | .queue, e :: _ => (Input.pending (s.world.nodes e)).head?.map fun i => (e, i)
  | _, _ => none

/-- The inputs that operation `e` takes in a run, in order. -/
def takes (A : App E T U I J X) (e : E) : St (World E T U I J X) E → List (Ev E T U I J X) →
    List (Inp Nat T)
  | _, [] => []
  | s, v :: vs =>
    (match v, taking (plain s) with
      | .tick, some (e', i) => if e' = e then [i] else []
      | _, _ => []) ++
    takes A e (Flush.step A.prog s v.up).1 vs

/-- The message that the event of an input with this content should have, if any. -/
def shown (tr : Trace I T J X) (d : T) : Option J :=
  match tr.toggle, tr.ser with
  | .messages, some f => (f d).toOption
  | _, _ => none

end Verif.Trace
