/-
Model of the combinators of `Chain`: which operations each of them creates, how it
connects them, and what the operations then do with a message.

Sources: /repo/src/chain.rs, /repo/src/chain/fork_clone_builder.rs:27-80,
/repo/src/chain/unzip.rs:39-130, /repo/src/operation/filter.rs,
/repo/src/operation/branching.rs, /repo/src/operation/fork_clone.rs:60-94,
/repo/src/operation/spread.rs:59-85, /repo/src/operation/noop.rs:55-70,
/repo/src/operation/operate_map.rs, /repo/src/operation/operate_cancel.rs:54-66.

All messages are of one type `V`. Which Rust type a combinator is for is a matter of its
bounds, so a combinator that is for results, options, tuples or collections carries a
function that reads a message as one.

Connections. `Connect` replaces an output by an input slot in the operation that sends to
it (src/builder/connect.rs:55-149). Here the operation keeps the name of its output, and
`dest` says what it was connected to; that the two are the same is C81 (Verif/Wire).

Not modelled: combinators that involve buffers or gates (`with_access`, `then_access`,
`then_push`, `then_gate_*`), `collect`, `then_trim`, `split`, scopes, injection, streams,
and what a scope does once it is cancelled (Verif/Scope): here the other messages go on.
-/
namespace Verif.Chain

variable {V : Type}

/-- Why a message was filtered out, src/operation/filter.rs:28-76, or why a branch of a fork
got nothing, src/operation/branching.rs:173-201, or that there was nothing to spread,
src/operation/spread.rs:79-84. -/
inductive Reason (V : Type) where
  | none
  | some
  | err (e : V)
  | quietErr
  | ok
  | okInput
  | errInput
  | someInput
  | noneInput
  | emptySpread

/-- `filter_none`, src/operation/filter.rs:33-35. -/
def filterNone (view : V → Option V) (v : V) : Except (Reason V) V :=
  match view v with
  | .some x => .ok x
  | .none => .error .none

/-- `filter_some`, src/operation/filter.rs:41-46. -/
def filterSome (view : V → Option V) (unit : V) (v : V) : Except (Reason V) V :=
  match view v with
  | .some _ => .error .some
  | .none => .ok unit

/-- `filter_err`, src/operation/filter.rs:55-57. -/
def filterErr (view : V → Except V V) (v : V) : Except (Reason V) V :=
  match view v with
  | .ok x => .ok x
  | .error e => .error (.err e)

/-- `filter_quiet_err`, src/operation/filter.rs:63-65. -/
def filterQuietErr (view : V → Except V V) (v : V) : Except (Reason V) V :=
  match view v with
  | .ok x => .ok x
  | .error _ => .error .quietErr

/-- `filter_ok`, src/operation/filter.rs:71-76. -/
def filterOk (view : V → Except V V) (v : V) : Except (Reason V) V :=
  match view v with
  | .ok _ => .error .ok
  | .error e => .ok e

/-- The operations. `map` stands for every provider that gives one response for each
request. Numbers are outputs. -/
inductive Op (V : Type) where
  | map (f : V → V) (target : Nat)
  | noop (target : Nat)
  | clone (targets : List Nat)
  | unzip (view : V → List V) (targets : List Nat)
  | spread (view : V → List V) (target : Nat)
  | result (view : V → Except V V) (first second : Nat)
  | option (view : V → Option V) (unit : V) (first second : Nat)
  | cancelFilter (filter : V → Except (Reason V) V) (target : Nat)
  | disposalFilter (filter : V → Except (Reason V) V) (target : Nat)
  | cancel (text : V → V)

/-- Where an output leads: to an entity, which is the output itself, or to an input slot
that it was connected to. -/
inductive Dest where
  | ent (e : Nat)
  | slot (s : Nat)
  deriving DecidableEq, Repr

/-- What the commands of the builder make. `next`: the next entity. -/
structure W (V : Type) where
  next : Nat
  op : Nat → Option (Op V)
  dest : Nat → Dest

def W.empty : W V := ⟨0, fun _ => none, .ent⟩

/-- `commands.spawn(UnusedTarget).id()`. -/
def W.spawn (w : W V) : W V × Nat := ({ w with next := w.next + 1 }, w.next)

/-- Several of them. -/
def W.spawns (w : W V) : Nat → W V × List Nat
  | 0 => (w, [])
  | n + 1 =>
    let (w, t) := w.spawn
    let (w, ts) := w.spawns n
    (w, t :: ts)

/-- `AddOperation`, src/operation.rs:620-662. -/
def W.add (w : W V) (e : Nat) (o : Op V) : W V :=
  { w with op := fun x => if x = e then some o else w.op x }

/-- `Builder::connect`, src/builder.rs:158-164. -/
def W.connect (w : W V) (e s : Nat) : W V :=
  { w with dest := fun x => if x = e then .slot s else w.dest x }

mutual
/-- What is written after an `Output::chain`. Every case is the combinator of that name in
src/chain.rs followed by the rest; the first two and `thenCancel` end a chain. `map` is
`then`, `map`, `map_block` and `map_async`. -/
inductive Chain (V : Type) where
  | connect (slot : Nat)
  | unused
  | thenCancel (text : V → V)
  | map (f : V → V) (rest : Chain V)
  | trigger (unit : V) (rest : Chain V)
  | noop (rest : Chain V)
  | branchClone (branch rest : Chain V)
  | forkClone (branches : Chains V)
  | forkUnzip (view : V → List V) (branches : Chains V)
  | spread (view : V → List V) (rest : Chain V)
  | forkResult (view : V → Except V V) (ok err : Chain V)
  | branchForErr (view : V → Except V V) (err rest : Chain V)
  | connectOnErr (view : V → Except V V) (wrap : V → V) (slot : Nat) (rest : Chain V)
  | cancelOnErr (view : V → Except V V) (rest : Chain V)
  | cancelOnQuietErr (view : V → Except V V) (rest : Chain V)
  | disposeOnErr (view : V → Except V V) (rest : Chain V)
  | disposeOnQuietErr (view : V → Except V V) (rest : Chain V)
  | disposeOnOk (view : V → Except V V) (rest : Chain V)
  | forkOption (view : V → Option V) (unit : V) (ifSome ifNone : Chain V)
  | branchForNone (view : V → Option V) (unit : V) (ifNone rest : Chain V)
  | connectOnNone (view : V → Option V) (unit nothing : V) (slot : Nat) (rest : Chain V)
  | cancelOnNone (view : V → Option V) (rest : Chain V)
  | disposeOnNone (view : V → Option V) (rest : Chain V)
  | disposeOnSome (view : V → Option V) (unit : V) (rest : Chain V)
  | cancellationFilter (f : V → V) (view : V → Option V) (rest : Chain V)
  | disposalFilter (f : V → V) (view : V → Option V) (rest : Chain V)

inductive Chains (V : Type) where
  | nil
  | cons (c : Chain V) (cs : Chains V)
end

def Chains.length : Chains V → Nat
  | .nil => 0
  | .cons _ cs => cs.length + 1

mutual
/-- The combinators, src/chain.rs. `e` is `self.target`.

* `connect` 83-86, `unused` 90-92, `then_cancel` 360-369, `then` 97-110, `trigger` 290-292,
  `noop` 697-707, `spread` 456-470;
* `fork_clone` 415-420 with chain/fork_clone_builder.rs:38-71, `branch_clone` 395-403,
  `fork_unzip` 440-445 with chain/unzip.rs:44-67 and 116-126;
* `fork_result` 756-774, `branch_for_err` 742-747, `connect_on_err` 783-788,
  `cancel_on_err` 822-836, `cancel_on_quiet_err` 842-853, `dispose_on_err` 861-875,
  `dispose_on_quiet_err` 881-892, `dispose_on_ok` 897-908;
* `fork_option` 934-952, `branch_for_none` 920-925, `connect_on_none` 961-966,
  `cancel_on_none` 971-982, `dispose_on_none` 990-1001, `dispose_on_some` 1007-1018;
* `cancellation_filter` 340-351, `disposal_filter` 374-385. -/
def build : Chain V → Nat → W V → W V
  | .connect s, e, w => w.connect e s
  | .unused, _, w => w
  | .thenCancel text, e, w => w.add e (.cancel text)
  | .map f rest, e, w =>
    let (w, t) := w.spawn
    build rest t (w.add e (.map f t))
  | .trigger unit rest, e, w =>
    let (w, t) := w.spawn
    build rest t (w.add e (.map (fun _ => unit) t))
  | .noop rest, e, w =>
    let (w, t) := w.spawn
    build rest t (w.add e (.noop t))
  | .branchClone branch rest, e, w =>
    let (w, a) := w.spawn
    let (w, b) := w.spawn
    let w := w.add e (.clone [a, b])
    let w := build branch b w
    build rest a w
  | .forkClone cs, e, w =>
    let (w, ts) := w.spawns cs.length
    buildAll cs ts (w.add e (.clone ts))
  | .forkUnzip view cs, e, w =>
    let (w, ts) := w.spawns cs.length
    buildAll cs ts (w.add e (.unzip view ts))
  | .spread view rest, e, w =>
    let (w, t) := w.spawn
    build rest t (w.add e (.spread view t))
  | .forkResult view ok err, e, w =>
    let (w, a) := w.spawn
    let (w, b) := w.spawn
    let w := w.add e (.result view a b)
    let w := build ok a w
    build err b w
  | .branchForErr view err rest, e, w =>
    let (w, a) := w.spawn
    let (w, b) := w.spawn
    let w := w.add e (.result view a b)
    let w := build err b w
    build rest a w
  | .connectOnErr view wrap s rest, e, w =>
    let (w, a) := w.spawn
    let (w, b) := w.spawn
    let w := w.add e (.result view a b)
    let (w, t) := w.spawn
    let w := w.add b (.map wrap t)
    let w := w.connect t s
    build rest a w
  | .cancelOnErr view rest, e, w =>
    let (w, t) := w.spawn
    build rest t (w.add e (.cancelFilter (filterErr view) t))
  | .cancelOnQuietErr view rest, e, w =>
    let (w, t) := w.spawn
    build rest t (w.add e (.cancelFilter (filterQuietErr view) t))
  | .disposeOnErr view rest, e, w =>
    let (w, t) := w.spawn
    build rest t (w.add e (.disposalFilter (filterErr view) t))
  | .disposeOnQuietErr view rest, e, w =>
    let (w, t) := w.spawn
    build rest t (w.add e (.disposalFilter (filterQuietErr view) t))
  | .disposeOnOk view rest, e, w =>
    let (w, t) := w.spawn
    build rest t (w.add e (.disposalFilter (filterOk view) t))
  | .forkOption view unit ifSome ifNone, e, w =>
    let (w, a) := w.spawn
    let (w, b) := w.spawn
    let w := w.add e (.option view unit a b)
    let w := build ifSome a w
    build ifNone b w
  | .branchForNone view unit ifNone rest, e, w =>
    let (w, a) := w.spawn
    let (w, b) := w.spawn
    let w := w.add e (.option view unit a b)
    let w := build ifNone b w
    build rest a w
  | .connectOnNone view unit nothing s rest, e, w =>
    let (w, a) := w.spawn
    let (w, b) := w.spawn
    let w := w.add e (.option view unit a b)
    let (w, t) := w.spawn
    let w := w.add b (.map (fun _ => nothing) t)
    let w := w.connect t s
    build rest a w
  | .cancelOnNone view rest, e, w =>
    let (w, t) := w.spawn
    build rest t (w.add e (.cancelFilter (filterNone view) t))
  | .disposeOnNone view rest, e, w =>
    let (w, t) := w.spawn
    build rest t (w.add e (.disposalFilter (filterNone view) t))
  | .disposeOnSome view unit rest, e, w =>
    let (w, t) := w.spawn
    build rest t (w.add e (.disposalFilter (filterSome view unit) t))
  | .cancellationFilter f view rest, e, w =>
    let (w, t) := w.spawn
    let w := w.add e (.map f t)
    let (w, u) := w.spawn
    build rest u (w.add t (.cancelFilter (filterNone view) u))
  | .disposalFilter f view rest, e, w =>
    let (w, t) := w.spawn
    let w := w.add e (.map f t)
    let (w, u) := w.spawn
    build rest u (w.add t (.disposalFilter (filterNone view) u))

/-- The builders of a tuple are called one after the other, each with its target. -/
def buildAll : Chains V → List Nat → W V → W V
  | .cons c cs, t :: ts, w =>
    let w := build c t w
    buildAll cs ts w
  | _, _, w => w
end

/-- The workflow of one chain that starts at a given output. -/
def built (c : Chain V) : W V :=
  let (w, e) := (W.empty : W V).spawn
  build c e w

/-! ### Messages -/

/-- What can be observed: a message arrives at an input slot; the scope is cancelled, by
`then_cancel` with a text (src/operation/operate_cancel.rs:61-66) or by a filter
(src/operation/filter.rs:152-158); a disposal is announced (filter.rs:311-315,
branching.rs:150-156, spread.rs:79-84). -/
inductive Effect (V : Type) where
  | arrive (slot : Nat) (v : V)
  | cancelled (text : V)
  | cancelFiltered (r : Reason V)
  | disposed (r : Reason V)

/-- A session: messages that are under way (inputs, or requests that are being carried
out), and what has been observed. -/
structure St (V : Type) where
  moving : List (Dest × V)
  seen : List (Effect V)

/-- `execute` of an operation on a message that it has taken, for the sources see `Op`:
what it sends and what else can be observed. Simplified: a request is carried out at once;
since any message may be the next that moves, this includes those that take long. -/
def exec (w : W V) (v : V) : Op V → List (Dest × V) × List (Effect V)
  | .map f t => ([(w.dest t, f v)], [])
  | .noop t => ([(w.dest t, v)], [])
  | .clone ts => (ts.map fun t => (w.dest t, v), [])
  | .unzip view ts => ((ts.zip (view v)).map fun p => (w.dest p.1, p.2), [])
  | .spread view t =>
    ((view v).map fun x => (w.dest t, x),
      if (view v).isEmpty then [.disposed .emptySpread] else [])
  | .result view a b =>
    match view v with
    | .ok x => ([(w.dest a, x)], [.disposed .okInput])
    | .error x => ([(w.dest b, x)], [.disposed .errInput])
  | .option view unit a b =>
    match view v with
    | some x => ([(w.dest a, x)], [.disposed .someInput])
    | none => ([(w.dest b, unit)], [.disposed .noneInput])
  | .cancelFilter filter t =>
    match filter v with
    | .ok x => ([(w.dest t, x)], [])
    | .error r => ([], [.cancelFiltered r])
  | .disposalFilter filter t =>
    match filter v with
    | .ok x => ([(w.dest t, x)], [])
    | .error r => ([], [.disposed r])
  | .cancel text => ([], [.cancelled (text v)])

/-- A message is dealt with where it is. An output that nothing was done with swallows it
(`UnusedTarget`, src/input.rs:188-210). -/
def deal (w : W V) (m : Dest × V) : List (Dest × V) × List (Effect V) :=
  match m.1 with
  | .slot s => ([], [.arrive s m.2])
  | .ent e =>
    match w.op e with
    | none => ([], [])
    | some o => exec w m.2 o

/-- The message with index `i` is dealt with; in what order they are is up to the flush and
to the tasks. -/
def step (w : W V) (s : St V) (i : Nat) : St V :=
  match s.moving[i]? with
  | none => s
  | some m =>
    { moving := s.moving.eraseIdx i ++ (deal w m).1
      seen := s.seen ++ (deal w m).2 }

def run (w : W V) (s : St V) (is : List Nat) : St V := is.foldl (step w) s

/-- A message is sent into the output that the chain of `built` starts at. -/
def sent (w : W V) (v : V) : St V := ⟨[(w.dest 0, v)], []⟩

end Verif.Chain
