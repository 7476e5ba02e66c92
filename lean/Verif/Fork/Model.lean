import Verif.Input.Model

/-
Model of the operations that hand one message on to several targets: result and option
branching, fork-clone, fork-unzip and spread. Each works on a world of nodes whose input
queues are those of Verif/Input.

Sources: src/operation/branching.rs, src/operation/fork_clone.rs,
src/operation/fork_unzip.rs, src/chain/unzip.rs, src/operation/spread.rs.

All messages share the type `V`; that an operation only ever receives messages of its own
Rust type is the type system's doing, so an operation carries a total `view` that reads a
message as a value of its type (a result, an option, a tuple or a collection).
-/
namespace Verif.Fork

open Verif.Input

/-- `OperationError` (src/operation.rs) and, as a third case, a panic. -/
inductive Fail where
  | notReady
  | broken
  | panic
  deriving DecidableEq, Repr

def Fail.ofErr : Err → Fail
  | .notReady => .notReady
  | .broken => .broken

/-- The causes of disposal of the operations below, src/disposal.rs. -/
inductive Cause where
  /-- `Disposal::branching(source, target, reason)` -/
  | branching (target : Nat)
  /-- `Disposal::empty_spread(source)` -/
  | emptySpread
  deriving DecidableEq, Repr

/-- A disposal emitted by `source` in `session`. Where it goes from there (src/disposal.rs:493-617)
is the subject of other parts of the model. -/
structure Disposal where
  source : Nat
  session : Nat
  cause : Cause
  deriving DecidableEq, Repr

/-- The world as far as messages are concerned: nodes by entity (`none`: despawned), which
sessions carry `SessionStatus::Active`, `roster.queue`, `roster.deferred_despawn` and the
disposals emitted so far. -/
structure World (V : Type) where
  nodes : Nat → Option (Node Nat V)
  active : Nat → Bool
  queue : List Nat := []
  despawn : List Nat := []
  disposals : List Disposal := []

variable {V : Type}

def World.setNode (w : World V) (e : Nat) (n : Node Nat V) : World V :=
  { w with nodes := fun x => if x = e then some n else w.nodes x }

/-- `world.get_entity_mut(target).or_broken()?.give_input(session, value, roster)?`,
src/input.rs:173-183. What was changed before an error stays changed, so the world is
returned in every case. -/
def World.give (w : World V) (target session : Nat) (v : V) : World V × Option Fail :=
  match w.nodes target with
  | none => (w, some .broken)
  | some n =>
    match giveInput n (w.active session) session v with
    | .error e => (w, some (.ofErr e))
    | .ok (n, .schedule) =>
      ({ w.setNode target n with queue := w.queue ++ [target] }, none)
    | .ok (n, .ignored) => (w.setNode target n, none)
    | .ok (n, .despawn) =>
      ({ w.setNode target n with despawn := w.despawn ++ [target] }, none)

/-- `world.get_entity_mut(source).or_broken()?.take_input()?`. -/
def World.take (w : World V) (source : Nat) : World V × Except Fail (Inp Nat V) :=
  match w.nodes source with
  | none => (w, .error .broken)
  | some n =>
    match takeInput n with
    | .error e => (w, .error (.ofErr e))
    | .ok (n, i) => (w.setNode source n, .ok i)

/-- `emit_disposal` on the source. -/
def World.dispose (w : World V) (source session : Nat) (c : Cause) : World V :=
  { w with disposals := w.disposals ++ [⟨source, session, c⟩] }

/-- A list of `give_input` calls, each followed by `?`. -/
def World.giveAll (w : World V) (session : Nat) : List (Nat × V) → World V × Option Fail
  | [] => (w, none)
  | (t, v) :: rest =>
    match w.give t session v with
    | (w, some e) => (w, some e)
    | (w, none) => w.giveAll session rest

/-- `branch_result`, src/operation/branching.rs:181-186, and `branch_option`, lines 196-201:
what each of the two branches gets, `none` being `Err(reason)`. -/
def branchResult : Except V V → Option V × Option V
  | .ok v => (some v, none)
  | .error e => (none, some e)

def branchOption (unit : V) : Option V → Option V × Option V
  | some v => (some v, none)
  | none => (none, some unit)

/-- One half of `Branchable::activate`, src/operation/branching.rs:146-157 and 159-170. -/
def World.activateOne (w : World V) (source session target : Nat) (b : Option V) :
    World V × Option Fail :=
  match w.nodes target with
  | none => (w, some .broken)
  | some _ =>
    match b with
    | some v => w.give target session v
    | none =>
      match w.nodes source with
      | none => (w, some .broken)
      | some _ => (w.dispose source session (.branching target), none)

/-- `Branchable::activate`, src/operation/branching.rs:134-172. -/
def World.activate (w : World V) (source session : Nat) (targets : List Nat)
    (act : Option V × Option V) : World V × Option Fail :=
  match targets[0]?, targets[1]? with
  | some a, some b =>
    match w.activateOne source session a act.1 with
    | (w, some e) => (w, some e)
    | (w, none) => w.activateOne source session b act.2
  | _, _ => (w, some .broken)

/-- The operations of this file with the targets in their `ForkTargetStorage` or
`SingleTargetStorage`. -/
inductive Op (V : Type) where
  /-- `make_result_branching`, src/operation/branching.rs:35-43 -/
  | result (view : V → Except V V) (targets : List Nat)
  /-- `make_option_branching`, src/operation/branching.rs:46-54; `unit` is `()` -/
  | option (view : V → Option V) (unit : V) (targets : List Nat)
  /-- `ForkClone`, src/operation/fork_clone.rs:28-45 -/
  | clone (targets : List Nat)
  /-- `ForkUnzip`, src/operation/fork_unzip.rs:24-36; `arity` is the length of the tuple -/
  | unzip (arity : Nat) (view : V → List V) (targets : List Nat)
  /-- `Spread`, src/operation/spread.rs:27-38 -/
  | spread (view : V → List V) (target : Nat)

/-- `ForkClone::execute`, src/operation/fork_clone.rs:60-94, after the input was taken. With
no target, `targets.len() - 1` of line 85 underflows: the subtraction panics in a debug
build and the slice index does in a release build. -/
def World.forkClone (w : World V) (session : Nat) (v : V) (targets : List Nat) :
    World V × Option Fail :=
  if targets.length = 0 then (w, some .panic)
  else
    match w.giveAll session ((targets.take (targets.length - 1)).map fun t => (t, v)) with
    | (w, some e) => (w, some e)
    | (w, none) =>
      match targets.getLast? with
      | some t => w.give t session v
      | none => (w, none)

/-- The assignments of `distribute_values`, src/chain/unzip.rs:78-82: a target that no
longer exists is passed over. -/
def World.distribute (w : World V) (session : Nat) : List (Nat × V) → World V × Option Fail
  | [] => (w, none)
  | (t, v) :: rest =>
    match w.nodes t with
    | none => w.distribute session rest
    | some _ =>
      match w.give t session v with
      | (w, some e) => (w, some e)
      | (w, none) => w.distribute session rest

/-- `distribute_values`, src/chain/unzip.rs:69-84, after the input was taken. `next_tuple`
(line 76) yields nothing when there are fewer targets than elements; further targets are
ignored. -/
def World.unzip (w : World V) (session arity : Nat) (vs : List V) (targets : List Nat) :
    World V × Option Fail :=
  if targets.length < arity then (w, some .broken)
  else w.distribute session ((targets.take arity).zip vs)

/-- `Spread::execute`, src/operation/spread.rs:59-85, after the input was taken. -/
def World.spread (w : World V) (source session : Nat) (vs : List V) (target : Nat) :
    World V × Option Fail :=
  match w.nodes target with
  | none => (w, some .broken)
  | some _ =>
    match w.giveAll session (vs.map fun v => (target, v)) with
    | (w, some e) => (w, some e)
    | (w, none) =>
      if vs.isEmpty then (w.dispose source session .emptySpread, none) else (w, none)

/-- `Operation::execute` of each: src/operation/branching.rs:80-96, fork_clone.rs:60-94,
fork_unzip.rs:52-54, spread.rs:59-85. -/
def exec (op : Op V) (source : Nat) (w : World V) : World V × Option Fail :=
  match w.take source with
  | (w, .error e) => (w, some e)
  | (w, .ok i) =>
    match op with
    | .result view targets => w.activate source i.session targets (branchResult (view i.data))
    | .option view unit targets =>
      w.activate source i.session targets (branchOption unit (view i.data))
    | .clone targets => w.forkClone i.session i.data targets
    | .unzip arity view targets => w.unzip i.session arity (view i.data) targets
    | .spread view target => w.spread source i.session (view i.data) target

/-- The operation executed `n` times; the second component lists what failed. -/
def execMany (op : Op V) (source : Nat) : Nat → World V → World V × List Fail
  | 0, w => (w, [])
  | n + 1, w =>
    let r := exec op source w
    let r' := execMany op source n r.1
    (r'.1, r.2.toList ++ r'.2)

/-- `AddBranchToForkClone`, src/operation/fork_clone.rs:116-141, after
`ForkCloneOutput::clone_output`, src/node.rs:168-180, spawned the target. -/
def addBranch (targets : List Nat) (target : Nat) : List Nat := targets ++ [target]

end Verif.Fork
