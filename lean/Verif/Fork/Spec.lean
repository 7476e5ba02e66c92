import Verif.Fork.Model

/- What the forking operations are supposed to do, in terms of the inputs waiting at each
node. -/
namespace Verif.Fork

open Verif.Input

variable {V : Type}

/-- The inputs waiting at a node in the order in which it will take them. -/
def World.inbox (w : World V) (e : Nat) : List (Inp Nat V) :=
  match w.nodes e with
  | none => []
  | some n => (n.storage.getD []).reverse

/-- The node exists and takes inputs of its connections. -/
def World.Listens (w : World V) (e : Nat) : Prop :=
  ∃ n q, w.nodes e = some n ∧ n.storage = some q

/-- A branch that was left unconnected: messages sent there vanish. -/
def World.Unused (w : World V) (e : Nat) : Prop :=
  ∃ n, w.nodes e = some n ∧ n.storage = none ∧ n.unused = true

/-- A legitimate target of a connection. -/
def World.Accepts (w : World V) (e : Nat) : Prop := w.Listens e ∨ w.Unused e

/-- `w'` is `w` after `source` consumed its oldest input and the messages `out` were
delivered in this order, each to its node, in an active session; nothing else changed in any
inbox, and the disposals `disp` were emitted. -/
structure Delivered (w w' : World V) (source session : Nat) (out : List (Nat × V))
    (disp : List Cause) : Prop where
  inbox : ∀ e, w.Listens e → w'.inbox e =
    (if e = source then (w.inbox e).tail else w.inbox e) ++
      (out.filter fun p => p.1 = e).map fun p => ⟨session, p.2⟩
  listens : ∀ e, w'.Listens e ↔ w.Listens e
  unused : ∀ e, w'.Unused e ↔ w.Unused e
  active : w'.active = w.active
  disposals : w'.disposals = w.disposals ++ disp.map fun c => ⟨source, session, c⟩
  queue : w'.queue = w.queue ++ out.map (·.1)
  despawn : w'.despawn = w.despawn

end Verif.Fork
