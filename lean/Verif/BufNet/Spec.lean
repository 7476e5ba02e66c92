import Verif.BufNet.Model

/-
Specification for C15 to C18 and C48: reading the history of a run.
-/
namespace Verif.BufNet

variable {B L S T : Type} [DecidableEq B] [DecidableEq L] [DecidableEq S]

/-- The values accepted by buffer `b` in session `s`, in order. -/
def sentTo (b : B) (s : S) (h : List (Hist B L S T)) : List T :=
  h.filterMap fun
    | .sent b' s' v => if b' = b ∧ s' = s then some v else none
    | _ => none

/-- The values that joins took out of buffer `b` in session `s`, in order. -/
def takenFrom (b : B) (s : S) (h : List (Hist B L S T)) : List T :=
  h.flatMap fun
    | .joined _ s' items =>
      if s' = s then
        items.filterMap fun i => if i.1 = b ∧ i.2.1 = .pull then some i.2.2 else none
      else []
    | _ => []

/-- The messages of join `l` in session `s`, in order. -/
def messages (l : L) (s : S) (h : List (Hist B L S T)) : List (List (B × Mode × T)) :=
  h.filterMap fun
    | .joined l' s' items => if l' = l ∧ s' = s then some items else none
    | _ => none

/-- The part of a joined message that comes from buffer `b`. -/
def partOf (b : B) (items : List (B × Mode × T)) : List T :=
  items.filterMap fun i => if i.1 = b then some i.2.2 else none

/-- How often buffer `b` woke listener `l` in session `s`. -/
def wakeCount (b : B) (l : L) (s : S) (h : List (Hist B L S T)) : Nat :=
  (h.filter fun
    | .woke b' l' s' => decide (b' = b ∧ l' = l ∧ s' = s)
    | _ => false).length

/-- The listeners woken, in order, with the buffer that woke them and the session. -/
def wakes (h : List (Hist B L S T)) : List (B × L × S) :=
  h.filterMap fun
    | .woke b l s => some (b, l, s)
    | _ => none

/-- The workflow built around the buffers: which buffers have listener `l`. A join
listens to each of its buffers (join.rs:50, buffering.rs:904-912), its buffers are
distinct. -/
structure Wired (listeners : B → List L) (kind : L → Kind B) : Prop where
  listens : ∀ l bufs, kind l = .join bufs → ∀ p ∈ bufs, l ∈ listeners p.1
  distinct : ∀ l bufs, kind l = .join bufs → (bufs.map (·.1)).Nodup
  once : ∀ b, (listeners b).Nodup

/-- Calls through a key that hand out or change values by mutable access; the others only
read. -/
def mutating : Buffer.Op T → Bool
  | .forcePush _ | .push _ | .pushAsOldest _ | .pull | .pullNewest | .consume | .clear
  | .ensure | .drainAll | .drain _ _ | .iterMut _ | .oldestMut _ | .newestMut _
  | .newestMutOrElse _ _ | .getMut _ _ => true
  | .readAll | .count | .oldest | .newest | .get _ => false

/-- Calls through a key that can add a value to a buffer. -/
def grows : Buffer.Op T → Bool
  | .forcePush _ | .push _ | .pushAsOldest _ | .newestMutOrElse _ _ => true
  | _ => false

/-- Events that do not close the gate of a buffer in `bufs` for session `s`. -/
def keepsOpen (bufs : List (B × Mode)) (s : S) : Ev B L S T → Prop
  | .gate b s' .closed => s' = s → ∀ p ∈ bufs, p.1 ≠ b
  | .keyGate b s' _ .closed => s' = s → ∀ p ∈ bufs, p.1 ≠ b
  | _ => True

/-- Uses of keys were handed out by some listener other than `l`. -/
def notBy (l : L) : Ev B L S T → Prop
  | .keyAccess _ _ a _ _ => a ≠ some l
  | .keyGate _ _ a _ => a ≠ some l
  | _ => True

/-- Every access by key adds at most one value. -/
def addsOne : Ev B L S T → Prop
  | .keyAccess _ _ _ ops _ => (ops.filter grows).length ≤ 1
  | _ => True

/-- Accesses to buffer `b` by key. -/
def keyOn (b : B) : Ev B L S T → Bool
  | .keyAccess b' _ _ _ _ => decide (b' = b)
  | _ => false

/-- Events that open the gate of buffer `b` for session `s`. -/
def opens (b : B) (s : S) : Ev B L S T → Bool
  | .gate b' s' .open => decide (b' = b ∧ s' = s)
  | .keyGate b' s' _ .open => decide (b' = b ∧ s' = s)
  | _ => false

end Verif.BufNet
