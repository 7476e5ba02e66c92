import Verif.Fork.Spec
import Verif.Split.Model

/- What a split is supposed to do. -/
namespace Verif.Split

open Verif.Input Verif.Fork

variable {Key : Type} [DecidableEq Key] {Id V K : Type} [DecidableEq K]

/-- The first of the keys an element may go to that is connected. -/
def pick (ks : List Key) (candidates : List Key) : Option Key :=
  candidates.find? fun k => k ∈ ks

/-- An element of a collection: the keys it may go to, in order of preference, and what is
sent. -/
abbrev Elem (Key Id V : Type) := List Key × (Id × V)

/-- The elements of a collection that belong to the connection of key `k`, in order. -/
def routed (ks : List Key) (es : List (Elem Key Id V)) (k : Key) : List (Id × V) :=
  (es.filter fun e => pick ks e.1 = some k).map (·.2)

/-- The elements of a list: the n-th goes to the n-th sequential connection or else to the
remaining one. -/
def listElems (vs : List V) : List (Elem ListKey Nat V) :=
  vs.zipIdx.map fun p => ([.sequential p.2, .remaining], (p.2, p.1))

/-- Number of elements of `l` whose key has no connection of its own. -/
def anonymous (ks : List (MapKey K)) (l : List (K × V)) : Nat :=
  l.countP fun x => decide (MapKey.specific x.1 ∉ ks)

/-- The elements of a map: each goes to the connection of its key, or else to the sequential
connection of its position among the elements whose key has none, or else to the remaining
one. -/
def mapElems (ks : List (MapKey K)) (l : List (K × V)) : List (Elem (MapKey K) K V) :=
  l.zipIdx.map fun p =>
    ([.specific p.1.1, .sequential (anonymous ks (l.take p.2)), .remaining], p.1)

/-- The elements of a JSON value. -/
def jsonElems (ks : List (MapKey K)) : Json K V → List (Elem (MapKey K) (JPos K) V)
  | .array vs => vs.zipIdx.map fun p => ([.sequential p.2, .remaining], (.element p.2, p.1))
  | .object l => l.zipIdx.map fun p =>
      ([.specific p.1.1, .sequential (anonymous ks (l.take p.2)), .remaining],
        (.field p.1.1, p.1.2))
  | .singular v => [([.sequential 0, .remaining], (.singular, v))]

/-- The split has connections for the distinct keys `ks`, in this order, to the targets `ts`,
and is at rest. -/
structure Linked (s : Split Key Id V) (ks : List Key) (ts : List Nat) : Prop where
  nodup : ks.Nodup
  length : ts.length = ks.length
  connections : s.connections = ks.zipIdx
  indexToKey : s.indexToKey = ks
  cache : s.cache = some (List.replicate ks.length [])
  targets : s.targets = ts

/-- What an execution must do with a message that consists of the elements `es`: connection
by connection, deliver the elements that belong there, and name in one disposal the
connections that got nothing. -/
structure Executed (mk : Id × V → V) (source : Nat) (i : Inp Nat V) (ks : List Key) (ts : List Nat)
    (es : List (Elem Key Id V)) (w w' : World V) (inc : List (Incomplete Key)) : Prop where
  delivered : Delivered w w' source i.session
    (if w.active i.session then
      (ks.zip ts).flatMap fun p => (routed ks es p.1).map fun x => (p.2, mk x)
    else []) []
  reported : inc = if ∀ k, k ∈ ks → routed ks es k ≠ [] then []
    else [⟨i.session, (ks.filter fun k => (routed ks es k).isEmpty).map some⟩]

/-- The successful calls among the returns of a builder. -/
def granted : List (Ret Key) → List (Key × Nat)
  | [] => []
  | .ok k t :: rest => (k, t) :: granted rest
  | _ :: rest => granted rest

end Verif.Split
