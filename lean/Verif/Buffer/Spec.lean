import Verif.Buffer.Model

/-
Specification of a buffer: per session an optional list, *oldest first*.
It is written from the documentation in src/buffer.rs, not from the storage code.
-/
namespace Verif.Buffer

/-- The values a retention policy promises to keep out of everything pushed. -/
def window {T : Type} : Retention → List T → List T
  | .keepAll, l => l
  | .keepLast n, l => l.drop (l.length - n)
  | .keepFirst n, l => l.take n

/-- The capacity of a policy (`none` = unlimited). -/
def Retention.capacity : Retention → Option Nat
  | .keepLast n => some n
  | .keepFirst n => some n
  | .keepAll => none

/-- A list satisfies the capacity of a policy. -/
def fits {T : Type} (r : Retention) (l : List T) : Prop :=
  ∀ n, r.capacity = some n → l.length ≤ n

/-- Specification state: contents per session, oldest first; `none` when the
session does not use the buffer. -/
structure SpecState (S T : Type) where
  retention : Retention
  content : S → Option (List T)

variable {S T : Type} [DecidableEq S]

def SpecState.set (b : SpecState S T) (s : S) (l : Option (List T)) : SpecState S T :=
  { b with content := fun s' => if s' = s then l else b.content s' }

/-- "Once the limit is reached, the oldest item is removed" / "any new item is
discarded": what remains after appending `v`, and the value given back. -/
def specPush (r : Retention) (l : List T) (v : T) : List T × Option T :=
  match r with
  | .keepAll => (l ++ [v], none)
  | .keepLast n =>
    if l.length < n then (l ++ [v], none) else ((l ++ [v]).tail, (l ++ [v]).head?)
  | .keepFirst n =>
    if l.length < n then (l ++ [v], none) else (l, some v)

/-- Pushing `v` "as if it is the oldest value": the list `v :: l`, of which a
`KeepFirst` buffer keeps the first values and a `KeepLast` buffer the last. -/
def specPushOldest (r : Retention) (l : List T) (v : T) : List T × Option T :=
  match r with
  | .keepAll => (v :: l, none)
  | .keepLast n =>
    if l.length < n then (v :: l, none) else (l, some v)
  | .keepFirst n =>
    if l.length < n then (v :: l, none) else ((v :: l).dropLast, (v :: l).getLast?)

/-- One call on the specification. -/
def specStep (b : SpecState S T) (s : S) (op : Op T) : SpecState S T × Out T :=
  match op, b.content s with
  | .forcePush v, c =>
    let p := specPush b.retention (c.getD []) v
    (b.set s (some p.1), .item p.2)
  | .push v, none => (b, .item (some v))
  | .push v, some l =>
    let p := specPush b.retention l v
    (b.set s (some p.1), .item p.2)
  | .pushAsOldest v, none => (b, .item (some v))
  | .pushAsOldest v, some l =>
    let p := specPushOldest b.retention l v
    (b.set s (some p.1), .item p.2)
  | .pull, c => (b.set s (c.map List.tail), .item (c.bind List.head?))
  | .pullNewest, c => (b.set s (c.map List.dropLast), .item (c.bind List.getLast?))
  | .consume, c => (b.set s (c.map fun _ => []), .items (c.getD []))
  | .clear, _ => (b.set s none, .unit)
  | .ensure, c => (b.set s (some (c.getD [])), .unit)
  | .drainAll, c => (b.set s (c.map fun _ => []), .items (c.getD []))
  | .drain _ _, none => (b, .items [])
  | .drain lo hi, some l =>
    if lo ≤ hi ∧ hi ≤ l.length then
      (b.set s (some (l.take lo ++ l.drop hi)), .items ((l.take hi).drop lo))
    else (b, .panic)
  | .readAll, c => (b, .items (c.getD []))
  | .count, c => (b, .num (c.getD []).length)
  | .oldest, c => (b, .item (c.bind List.head?))
  | .newest, c => (b, .item (c.bind List.getLast?))
  | .get i, c => (b, .item (c.bind fun l => l[i]?))
  | .iterMut g, c => (b.set s (c.map fun l => l.mapIdx g), .unit)
  | .oldestMut g, c => (b.set s (c.map fun l => l.modify 0 g), .item (c.bind List.head?))
  | .newestMut g, c =>
    (b.set s (c.map fun l => l.modify (l.length - 1) g), .item (c.bind List.getLast?))
  | .newestMutOrElse _ _, none => (b, .item none)
  | .newestMutOrElse v g, some l =>
    let l' := if l.isEmpty then (specPush b.retention l v).1 else l
    (b.set s (some (l'.modify (l'.length - 1) g)), .item l'.getLast?)
  | .getMut i g, c => (b.set s (c.map fun l => l.modify i g), .item (c.bind fun l => l[i]?))

def specRun (b : SpecState S T) : List (S × Op T) → SpecState S T × List (Out T)
  | [] => (b, [])
  | (s, op) :: rest =>
    let r := specStep b s op
    let r' := specRun r.1 rest
    (r'.1, r.2 :: r'.2)

/-- Values a call offers to the buffer. -/
def offered : Op T → List T
  | .forcePush v => [v]
  | .push v => [v]
  | .pushAsOldest v => [v]
  | _ => []

/-- Values a call hands over to the caller: the results of removals and the
refused or evicted values of pushes. Reads only lend a reference. -/
def handedOver : Op T → Out T → List T
  | .forcePush _, .item v => v.toList
  | .push _, .item v => v.toList
  | .pushAsOldest _, .item v => v.toList
  | .pull, .item v => v.toList
  | .pullNewest, .item v => v.toList
  | .consume, .items vs => vs
  | .drainAll, .items vs => vs
  | .drain _ _, .items vs => vs
  | _, _ => []

/-- Calls that write new values in place, through a mutable reference. -/
def writesInPlace : Op T → Bool
  | .iterMut _ => true
  | .oldestMut _ => true
  | .newestMut _ => true
  | .newestMutOrElse _ _ => true
  | .getMut _ _ => true
  | _ => false

/-- Calls that are not a drain of a proper range of indices. -/
def notRangedDrain : Op T → Bool
  | .drain _ _ => false
  | _ => true

def notPushAsOldest : Op T → Bool
  | .pushAsOldest _ => false
  | _ => true

end Verif.Buffer

namespace Verif.Buffer
variable {S T : Type} [DecidableEq S]

/-- The values pushed to session `s` in a history, in order. -/
def pushedTo (s : S) : List (S × Op T) → List T
  | [] => []
  | (s', .forcePush v) :: rest => if s' = s then v :: pushedTo s rest else pushedTo s rest
  | (s', .push v) :: rest => if s' = s then v :: pushedTo s rest else pushedTo s rest
  | _ :: rest => pushedTo s rest

/-- The calls of a history that concern session `s`. -/
def callsOf (s : S) (ops : List (S × Op T)) : List (S × Op T) :=
  ops.filter fun c => decide (c.1 = s)

/-- The observations made by the calls on session `s`. -/
def outsOf (s : S) (ops : List (S × Op T)) (outs : List (Out T)) : List (Out T) :=
  ((ops.zip outs).filter fun c => decide (c.1.1 = s)).map (·.2)

/-- All values offered to session `s`. -/
def offeredTo (s : S) (ops : List (S × Op T)) : List T :=
  (callsOf s ops).flatMap fun c => offered c.2

/-- All values handed over to callers of session `s`. -/
def handedOverFrom (s : S) (ops : List (S × Op T)) (outs : List (Out T)) : List T :=
  (ops.zip outs).flatMap fun c => if c.1.1 = s then handedOver c.1.2 c.2 else []

/-- The values that one call throws away: the contents of a cleared session. -/
def clearedBy (contents : List T) : Op T → List T
  | .clear => contents
  | _ => []

/-- The values that were readable in session `s` whenever it was cleared. -/
def clearedFrom (s : S) (b : Storage S T) : List (S × Op T) → List T
  | [] => []
  | (s', op) :: rest =>
    (if s' = s then clearedBy (b.iter s) op else []) ++ clearedFrom s (step b s' op).1 rest

/-- Histories in which the one defective corner is not used: pushing "as oldest"
into a `KeepFirst(0)` buffer (see `C03_capacity_violated`). -/
def Regular (r : Retention) (ops : List (S × Op T)) : Prop :=
  r = .keepFirst 0 → ∀ c ∈ ops, notPushAsOldest c.2 = true

end Verif.Buffer
