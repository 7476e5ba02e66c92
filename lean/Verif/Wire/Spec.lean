import Verif.Wire.Model

/-!
# What the calls of the builder ask for

A `Plan` says, in terms of the handles that the user was given, what was asked
for: which outputs each operation has, which operations each scope holds, and
where each output was connected to.  It knows nothing of components: it is a
list of requests.  An output is named by the number that it was given when it
was made, and an operation by the number of its input.
-/

namespace Verif.Wire

/-- What was asked for.

* `outs x`: the outputs of operation `x`, in the order in which they were made
  (for a buffer: the operations that listen to it);
* `entry s`: the output from which what comes into scope `s` is taken;
* `dest n`: the operation that gets what comes out of output `n`; `n` itself
  when nothing was connected to it, or when an operation was chained onto it;
* `home n`: the scope in which output `n` may be used;
* `inside s`: the operations of scope `s`. -/
structure Plan where
  next : Nat
  outs : Nat → List Nat
  entry : Nat → Option Nat
  dest : Nat → Nat
  home : Nat → Nat
  inside : Nat → List Nat

/-- Change a function at one place. -/
def set {α : Type} (f : Nat → α) (x : Nat) (v : α) : Nat → α := fun m => if m = x then v else f m

/-- Give `x` another `n` outputs, for use in scope `sc`. -/
def Plan.give (p : Plan) (x sc n : Nat) : Plan :=
  { p with
    next := p.next + n
    outs := set p.outs x (p.outs x ++ List.range' p.next n)
    home := fun m => if m ∈ List.range' p.next n then sc else p.home m }

/-- Operation `x` belongs to scope `sc`. -/
def Plan.place (p : Plan) (x sc : Nat) : Plan :=
  { p with inside := set p.inside sc (p.inside sc ++ [x]) }

/-- A number is taken. -/
def Plan.skip (p : Plan) : Plan := { p with next := p.next + 1 }

/-- Scope `s` takes what comes in from a new output. -/
def Plan.opens (p : Plan) (s : Nat) : Plan :=
  { p with
    next := p.next + 1
    entry := set p.entry s (some p.next)
    home := set p.home p.next s }

/-- The name of a new operation: its own number, or that of the output that it
is chained onto. -/
def Plan.source (p : Plan) : From → Plan × Nat × Nat
  | .fresh sc => (p.skip, p.next, sc)
  | .chained o => (p, o.target, o.scope)

/-- The streams of a scope: operations inside of it with an output outside. -/
def Plan.scopeStreams (p : Plan) (scope outer : Nat) : Nat → Plan
  | 0 => p
  | n + 1 =>
    let s := p.next
    (((p.skip).give s outer 1).place s scope).scopeStreams scope outer n

/-- Operation `l` listens to each of the buffers. -/
def Plan.listenAll (p : Plan) (l : Nat) : List Slot → Plan
  | [] => p
  | s :: bs =>
    let old := p.outs s.source
    let new := if l ∈ old then old else old ++ [l]
    Plan.listenAll { p with outs := set p.outs s.source new } l bs

/-- What one call asks for. -/
def Plan.call (p : Plan) : Call → Plan
  | .node src keys =>
    let (p, s, sc) := p.source src
    (p.give s sc (1 + keys.length)).place s sc
  | .fork src n =>
    let (p, s, sc) := p.source src
    (p.give s sc n).place s sc
  | .newScope src n =>
    let (p, s, sc) := p.source src
    ((((p.give s sc 1).opens s).skip).place s sc).scopeStreams s sc n
  | .sink sc => (p.skip).place p.next sc
  | .buffer sc => (p.skip).place p.next sc
  | .listener sc bs =>
    let l := p.next
    let p := { p.skip with home := set p.home l sc }
    ((p.give l sc 1).listenAll l bs).place l sc
  | .branch f => p.give f.source f.scope 1
  | .connect o i => { p with dest := set p.dest o.target i.source }

/-- What was asked for before the first call: the workflow is scope 0, and what
comes in is taken from output 1. -/
def Plan.start : Plan :=
  { next := 3
    outs := fun _ => []
    entry := fun s => if s = 0 then some 1 else none
    dest := id
    home := fun _ => 0
    inside := fun _ => [] }

def Plan.run (p : Plan) : List Call → Plan
  | [] => p
  | c :: cs => (p.call c).run cs

/-- No stream pack has two streams of one type or name. -/
def Call.Distinct : Call → Prop
  | .node _ keys => keys.Nodup
  | _ => True

instance (c : Call) : Decidable c.Distinct := by
  cases c <;> simp only [Call.Distinct] <;> infer_instance

/-- Where entity `x` sends to. -/
def World.targets (w : World) (x : Nat) : List Nat :=
  match w.ents x with
  | some e => e.targets
  | none => []

/-- Where entity `y` looks for what may still reach it. -/
def World.inputs (w : World) (y : Nat) : List Nat :=
  match w.ents y with
  | some e => e.inputs.getD []
  | none => []

/-- There is an operation at `y`. -/
def World.IsOp (w : World) (y : Nat) : Prop := ∃ e, w.ents y = some e ∧ e.op = true

/-- `n` is the name of an output. -/
def Plan.Named (p : Plan) (n : Nat) : Prop := (∃ x, n ∈ p.outs x) ∨ ∃ s, p.entry s = some n

end Verif.Wire
