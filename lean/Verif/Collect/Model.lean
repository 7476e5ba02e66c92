/-
Model of the collect operation, src/operation/collect.rs. The answer of
`is_upstream_active` (lines 221-247), whether more inputs may arrive in the session, is
part of the event: every timing of upstream exhaustion is a sequence of events. (What the
search for upstream activity finds is the subject of Verif/Graph.)
-/
namespace Verif.Collect

variable {α : Type}

/-- What a collect node has emitted or lost. -/
inductive Rec (α : Type) where
  /-- a batch was given to the target -/
  | sent (session : Nat) (batch : List α)
  /-- `Disposal::deficient_collection` with this number of elements -/
  | deficient (session : Nat) (len : Nat)
  /-- a cleanup of the session dropped these elements -/
  | cleaned (session : Nat) (rest : List α)
  deriving DecidableEq, Repr

/-- `CollectionStorage`, src/operation/collect.rs:160-165. A session without an entry in the
map has the empty list. -/
structure Coll (α : Type) where
  min : Nat
  max : Option Nat
  map : Nat → List α
  log : List (Rec α) := []

/-- `Collect::setup`, src/operation/collect.rs:56-77; `none` is a failed assertion of lines
62-65. -/
def Coll.setup (min : Nat) (max : Option Nat) : Option (Coll α) :=
  match max with
  | none => some { min, max, map := fun _ => [] }
  | some m => if 0 < m ∧ min ≤ m then some { min, max, map := fun _ => [] } else none

def Coll.put (c : Coll α) (session : Nat) (l : List α) : Coll α :=
  { c with map := fun s => if s = session then l else c.map s }

/-- Give the collection of the session to the target and leave it empty. -/
def Coll.send (c : Coll α) (session : Nat) : Coll α :=
  { c.put session [] with log := c.log ++ [.sent session (c.map session)] }

/-- `on_unreachable_collection`, src/operation/collect.rs:249-287. -/
def Coll.onUnreachable (c : Coll α) (session : Nat) : Coll α :=
  if (c.map session).length < c.min then
    { c with log := c.log ++ [.deficient session (c.map session).length] }
  else c.send session

/-- `Collect::execute`, src/operation/collect.rs:79-116. `active`: the answer of
`is_upstream_active`. -/
def Coll.execute (c : Coll α) (session : Nat) (data : α) (active : Bool) : Coll α :=
  let c := c.put session (c.map session ++ [data])
  if c.max.any (fun max => decide ((c.map session).length ≥ max)) then c.send session
  else if active then c
  else c.onUnreachable session

inductive Ev (α : Type) where
  | input (session : Nat) (data : α) (active : Bool)
  /-- `collection_disposal_listener`, src/operation/collect.rs:177-218: a disposal of an
  `origin` that is the node itself (`own`) or not upstream of it is ignored -/
  | disposal (session : Nat) (own upstream active : Bool)
  /-- `Collect::cleanup`, src/operation/collect.rs:118-128 -/
  | cleanup (session : Nat)
  deriving DecidableEq, Repr

def step (c : Coll α) : Ev α → Coll α
  | .input session data active => c.execute session data active
  | .disposal session own upstream active =>
    if own then c
    else if !upstream then c
    else if active then c
    else c.onUnreachable session
  | .cleanup session =>
    { c.put session [] with log := c.log ++ [.cleaned session (c.map session)] }

def run (c : Coll α) : List (Ev α) → Coll α
  | [] => c
  | e :: es => run (step c e) es

end Verif.Collect
