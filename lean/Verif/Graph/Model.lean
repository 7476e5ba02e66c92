/-
Model of the two graph searches of src/operation.rs: the search for downstream
operations and the search for activity upstream of an operation.
-/
namespace Verif.Graph

/-! ### Downstream search -/

/-- The components of an operation that `immediately_downstream_of` reads:
`SingleTargetStorage`, `ForkTargetStorage` and the two halves of
`StreamTargetMap` (src/stream/stream_target_map.rs). Targets of streams are listed
in the iteration order of the hash map, which is arbitrary. -/
structure Links where
  single : Option Nat
  fork : Option (List Nat)
  anonymous : List Nat
  named : List Nat
  deriving DecidableEq, Repr

/-- The world as a finite list of entities with their links. -/
abbrev Net := List (Nat × Links)

/-- `immediately_downstream_of`, src/operation.rs:771-785 with the iterators of
736-769. Named stream targets are not looked at, as in the code. -/
def next (w : Net) (e : Nat) : List Nat :=
  match w.lookup e with
  | none => []
  | some l =>
    (match l.single with
      | some t => [t]
      | none =>
        match l.fork with
        | some ts => ts
        | none => []) ++ l.anonymous

/-- The `while` loop of `is_downstream_of`, src/operation.rs:800-813. The stack has
its top at the head; `next` targets are pushed one by one, so the last one ends on
top. `none`: the loop has not finished within `fuel` iterations. -/
def search (w : Net) (target : Nat) : Nat → List Nat → List Nat → Option Bool
  | 0, _, _ => none
  | _ + 1, [], _ => some false
  | fuel + 1, top :: stack, visited =>
    if top = target then some true
    else if top ∈ visited then search w target fuel stack visited
    else search w target fuel ((next w top).reverse ++ stack) (top :: visited)

/-- `is_downstream_of`, src/operation.rs:792-818. -/
def isDownstreamOf (w : Net) (fuel source target : Nat) : Option Bool :=
  if source = target then some false
  else search w target fuel [source] []

/-! ### Upstream search -/

/-- What the `is_reachable` function of an operation reads, for every session.

* `plain`: has_input, or other activity of the operation itself, or else
  `SingleInputStorage::is_reachable` (src/operation.rs:131-143). This is the shape of
  map (src/operation/operate_map.rs:139-144 and 272-280), service
  (operate_service.rs:117-135, where the scope of a workflow provider is asked first,
  as one more input), callback (operate_callback.rs:129-137), branching, spread, fork
  clone, fork unzip, filter, split, trim, listen, buffer access, noop, static gate,
  cancel, collect, injection (injection.rs:198-208), terminate (scope.rs:1383-1397),
  scope (scope.rs:448-483) and stream redirects (scope.rs:2098-2104, the scope being
  the input). `active` stands for all the checks before the inputs are asked: pending
  inputs, running tasks, queued requests, a staged result, and for a scope the same
  search made inside with its own visited map and session.
* `join`: src/operation/join.rs:92-115; each input buffer with the number of values it
  holds for a session.
* `buffer`: src/operation/operate_buffer.rs:102-125, 179-202 and
  operate_buffer_access.rs:215-234: whether the gate is open for a session, the gate
  nodes with whether they open, the accessors with whether a key is in use.
* `broken`: the function returns `Err(Broken)`: scope.rs:1635-1639, and
  `OperateDynamicGate` (operate_gate.rs:118-120), which asks for inputs of type `T`
  while its storage is for `GateRequest<T>` (operate_gate.rs:60). -/
inductive Op where
  | plain (active : Nat → Bool) (inputs : List Nat)
  | join (inputs : List (Nat × (Nat → Nat)))
  | buffer (isOpen : Nat → Bool) (gates : List (Nat × Bool))
      (accessors : List (Nat × (Nat → Bool))) (active : Nat → Bool) (inputs : List Nat)
  | broken

/-- The operations of a workflow. -/
abbrev World := List (Nat × Op)

/-- An `is_reachable` function as the sequence of its calls of `check_upstream`. -/
inductive Query where
  | ret (b : Bool)
  | fail
  | ask (n : Nat) (k : Bool → Query)

/-- A loop `for i in is { if check_upstream(i)? { return Ok(true) } }` followed by
`rest`: src/operation.rs:136-140, operate_buffer_access.rs:227-231. -/
def Query.any : List Nat → Query → Query
  | [], rest => rest
  | i :: is, rest => .ask i fun b => if b then .ret true else Query.any is rest

/-- The loop of `Join::is_reachable`, src/operation/join.rs:104-114. -/
def Query.join (s : Nat) : List (Nat × (Nat → Nat)) → Query
  | [] => .ret true
  | p :: ps => .ask p.1 fun b =>
      if b then Query.join s ps
      else if p.2 s = 0 then .ret false
      else Query.join s ps

/-- `BufferAccessors::is_reachable`, operate_buffer_access.rs:215-234, followed by
`rest` when it is false. -/
def Query.accessors (s : Nat) (as : List (Nat × (Nat → Bool))) (rest : Query) : Query :=
  if as.any (fun a => a.2 s) then .ret true
  else Query.any (as.map (·.1)) rest

/-- The loop of `RelatedGateNodes::is_opening_reachable`,
src/operation/operate_buffer.rs:193-200, with its two continuations. -/
def Query.opening : List (Nat × Bool) → Query → Query → Query
  | [], _, no => no
  | g :: gs, yes, no =>
    if g.2 then .ask g.1 fun b => if b then yes else Query.opening gs yes no
    else Query.opening gs yes no

/-- The `is_reachable` function of an operation. -/
def Op.query (s : Nat) : Op → Query
  | .plain active inputs =>
    if active s then .ret true else Query.any inputs (.ret false)
  | .join inputs => Query.join s inputs
  | .buffer isOpen gates accessors active inputs =>
    let yes :=
      if active s then .ret true
      else Query.accessors s accessors (Query.any inputs (.ret false))
    let no := Query.accessors s accessors (.ret false)
    if isOpen s then yes else Query.opening gates yes no
  | .broken => .fail

/-- `ReachabilityResult`; `unfinished` when the search has used up its fuel. -/
inductive Res where
  | ok (b : Bool)
  | broken
  | unfinished
  deriving DecidableEq, Repr

/-- The visited map; the newest entry of a key counts. -/
abbrev Visited := List (Nat × Bool)

/-- Running an `is_reachable` function with the given `check_upstream`; the visited
map is passed along. -/
def interp (ask : Visited → Nat → Res × Visited) : Query → Visited → Res × Visited
  | .ret b, v => (.ok b, v)
  | .fail, v => (.broken, v)
  | .ask n k, v =>
    match ask v n with
    | (.ok b, v') => interp ask (k b) v'
    | (r, v') => (r, v')

/-- `OperationReachability::check_upstream`, src/operation.rs:413-448. -/
def checkUpstream (w : World) (s : Nat) : Nat → Visited → Nat → Res × Visited
  | 0, v, _ => (.unfinished, v)
  | fuel + 1, v, n =>
    match v.lookup n with
    | some b => (.ok b, v)
    | none =>
      match w.lookup n with
      | none => (.broken, (n, false) :: v)
      | some op =>
        match interp (checkUpstream w s fuel) (op.query s) ((n, false) :: v) with
        | (.ok true, v') => (.ok true, (n, true) :: v')
        | (r, v') => (r, v')

/-- `check_reachability`, src/operation.rs:470-485, with as much fuel as the nesting of
calls can need. -/
def checkReachability (w : World) (s n : Nat) : Res :=
  (checkUpstream w s (w.length + 1) [] n).1

end Verif.Graph
