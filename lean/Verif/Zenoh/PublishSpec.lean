import Verif.Zenoh.Publish

/-
What C107 and C108 say about the histories of a publisher node, without reference to how it works.
-/

namespace Verif.Zenoh.Publish

variable {M B E : Type}

/-- What was handed to the network, in that order. -/
def starts : List (Log B E) → List (Nat × B)
  | [] => []
  | .start t b :: l => (t, b) :: starts l
  | .finish _ _ :: l => starts l

/-- The messages that can be encoded, each with its position, in their order. -/
def encodables (enc : M → Except String B) (ms : List M) : List (Nat × B) :=
  ms.zipIdx.filterMap fun x =>
    match enc x.1 with
    | .ok b => some (x.2, b)
    | .error _ => none

/-- Each put ends before the next one begins. -/
inductive Apart : List (Log B E) → Prop
  | nil : Apart []
  | last (t b) : Apart [.start t b]
  | cons (t b r l) : Apart l → Apart (.start t b :: .finish t r :: l)

/-- Nothing is under way: no task has yet to encode, nothing is in the channel, no put is going
on. -/
def Quiet (s : St M B E) : Prop :=
  s.encoding = [] ∧ s.queue = [] ∧ s.busy = none

/-- `r` is the right answer for the message `m` with ticket `t`. -/
def RightAnswer (enc : M → Except String B) (s : St M B E) (t : Nat) (m : M) :
    Except (Error E) Unit → Prop
  | .ok () => .finish t (.ok ()) ∈ s.log
  | .error (.encoding e) => enc m = .error e
  | .error .dropped => s.alive = false
  | .error (.zenoh e) =>
    .finish t (.error e) ∈ s.log ∨ s.publisher = some (.error (.zenoh e))

end Verif.Zenoh.Publish
