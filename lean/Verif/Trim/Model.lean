import Verif.Graph.Model

/-
Model of the trim operation, src/operation/operate_trim.rs, with src/trim.rs and the part of
src/operation/cleanup.rs that serves it.
-/
namespace Verif.Trim

open Verif.Graph (Net next)

/-! ### Which operations are trimmed -/

/-- `TrimPoint`, src/trim.rs:93-98. All points are in the scope of the trim
(`TrimBranch::verify_scope` panics otherwise), so the scope is left out. -/
structure Point where
  id : Nat
  inclusive : Bool
  deriving DecidableEq, Repr

/-- `TrimPoint::accept`, src/trim.rs:140-142. -/
def Point.accept (p : Point) (n : Nat) : Bool := p.inclusive || n ≠ p.id

/-- `TrimPolicy`, src/trim.rs:151-156. -/
inductive Policy where
  | downstream
  | span (ends : List Point)
  deriving DecidableEq, Repr

/-- `TrimBranch`, src/trim.rs:26-30. -/
structure Branch where
  start : Point
  policy : Policy
  deriving DecidableEq, Repr

/-- `TrimBranch::single_point`, src/trim.rs:35-41. -/
def Branch.single (n : Nat) : Branch := ⟨⟨n, true⟩, .span [⟨n, true⟩]⟩

/-- The `span_map` of `calculate_span`: its keys, and the pairs of a key with an element of
its set. -/
structure Map where
  keys : List Nat
  links : List (Nat × Nat)
  deriving DecidableEq, Repr

/-- The `for` loop of `calculate_span`, src/operation/operate_trim.rs:383-398. The stack has
its top at the head. -/
def expand (filter : List Nat) (top : Nat) : List Nat → List Nat → Map → List Nat × Map
  | [], stack, m => (stack, m)
  | n :: rest, stack, m =>
    if n ∈ filter then expand filter top rest stack m
    else
      let links := if (n, top) ∈ m.links then m.links else (n, top) :: m.links
      if n ∈ m.keys then expand filter top rest stack ⟨m.keys, links⟩
      else expand filter top rest (n :: stack) ⟨n :: m.keys, links⟩

/-- The first `while` loop of `calculate_span`, src/operation/operate_trim.rs:377-399.
`none`: it has not finished within `fuel` iterations. -/
def build (w : Net) (goal : Nat) (filter : List Nat) : Nat → List Nat → Map → Option Map
  | 0, _, _ => none
  | _ + 1, [], m => some m
  | fuel + 1, top :: stack, m =>
    if top = goal then build w goal filter fuel stack m
    else
      let r := expand filter top (next w top) stack m
      build w goal filter fuel r.1 r.2

/-- The second `while` loop of `calculate_span`, src/operation/operate_trim.rs:405-413. The
order in which the elements of a `HashSet` are pushed is arbitrary; the order here is that of
the links. -/
def crawl (links : List (Nat × Nat)) : Nat → List Nat → List Nat → Option (List Nat)
  | 0, _, _ => none
  | _ + 1, [], nodes => some nodes
  | fuel + 1, top :: stack, nodes =>
    if top ∈ nodes then crawl links fuel stack nodes
    else
      crawl links fuel ((links.filter fun l => l.1 = top).map (·.2) ++ stack) (top :: nodes)

/-- All connections of a workflow, for the number of iterations. -/
def edges (w : Net) : List (Nat × Nat) := w.flatMap fun p => (next w p.1).map fun n => (p.1, n)

/-- `calculate_span`, src/operation/operate_trim.rs:355-416. -/
def calculateSpan (w : Net) (start goal : Nat) (filter : List Nat) : Option (List Nat) :=
  if goal ∈ filter then some []
  else
    match build w goal filter ((edges w).length + 2) [start] ⟨[start], []⟩ with
    | none => none
    | some m => crawl m.links (m.links.length + 2) [goal] []

/-- The `while` loop of `calculate_downstream`, src/operation/operate_trim.rs:288-300. -/
def flow (w : Net) (filter : List Nat) : Nat → List Nat → List Nat → Option (List Nat)
  | 0, _, _ => none
  | _ + 1, [], visited => some visited
  | fuel + 1, top :: stack, visited =>
    if top ∈ filter then flow w filter fuel stack visited
    else if top ∈ visited then flow w filter fuel stack visited
    else flow w filter fuel ((next w top).reverse ++ stack) (top :: visited)

/-- `Cancellation::invalid_span`: the two points. -/
abbrev Invalid := Nat × Option Nat

/-- The filter of both policies, src/operation/operate_trim.rs:279-283 and 335-342. -/
def upstreamFilter (w : Net) (entry start : Nat) : Option (List Nat) :=
  match calculateSpan w entry start [] with
  | none => none
  | some l => some (l.filter fun n => n ≠ start)

/-- `calculate_downstream`, src/operation/operate_trim.rs:272-310. -/
def calculateDownstream (w : Net) (entry : Nat) (p : Point) : Option (Except Invalid (List Nat)) :=
  match upstreamFilter w entry p.id with
  | none => none
  | some filter =>
    match flow w filter ((edges w).length + 2) [p.id] [] with
    | none => none
    | some visited =>
      if visited.isEmpty then some (.error (p.id, none))
      else some (.ok (visited.filter fun n => p.accept n))

/-- `calculate_span_nodes`, src/operation/operate_trim.rs:329-353. -/
def calculateSpanNodes (w : Net) (entry : Nat) (p q : Point) :
    Option (Except Invalid (List Nat)) :=
  match upstreamFilter w entry p.id with
  | none => none
  | some filter =>
    match calculateSpan w p.id q.id filter with
    | none => none
    | some span =>
      if span.isEmpty then some (.error (p.id, some q.id))
      else some (.ok (span.filter fun n => p.accept n && q.accept n))

/-- `sort` puts an element into a sorted list. -/
def insert (n : Nat) : List Nat → List Nat
  | [] => [n]
  | m :: l => if n ≤ m then n :: m :: l else m :: insert n l

/-- `sort` of a `SmallVec`. -/
def sort : List Nat → List Nat
  | [] => []
  | n :: l => insert n (sort l)

/-- `dedup` of a `SmallVec`, which removes repeated elements in a row. -/
def dedup : List Nat → List Nat
  | [] => []
  | n :: l => if l.head? = some n then dedup l else n :: dedup l

/-- The loops over branches and over endpoints: collect the nodes, stop at the first
cancellation, src/operation/operate_trim.rs:248-265 and 318-326. -/
def gather {A : Type} (f : A → Option (Except Invalid (List Nat))) :
    List A → List Nat → Option (Except Invalid (List Nat))
  | [], all => some (.ok (dedup (sort all)))
  | a :: rest, all =>
    match f a with
    | none => none
    | some (.error c) => some (.error c)
    | some (.ok nodes) => gather f rest (all ++ nodes)

/-- `calculate_all_spans`, src/operation/operate_trim.rs:312-327. -/
def calculateAllSpans (w : Net) (entry : Nat) (p : Point) (ends : List Point) :
    Option (Except Invalid (List Nat)) :=
  gather (calculateSpanNodes w entry p) ends []

/-- The policy of one branch, src/operation/operate_trim.rs:249-254. -/
def calculateBranch (w : Net) (entry : Nat) (b : Branch) : Option (Except Invalid (List Nat)) :=
  match b.policy with
  | .downstream => calculateDownstream w entry b.start
  | .span ends => calculateAllSpans w entry b.start ends

/-- `calculate_nodes`, src/operation/operate_trim.rs:242-270. -/
def calculateNodes (w : Net) (entry : Nat) (branches : List Branch) :
    Option (Except Invalid (List Nat)) :=
  gather (calculateBranch w entry) branches []

/-! ### The operation -/

/-- A trim in its workflow. `self` is the entity of the trim itself, `cleanable` says which
entities have an `OperationCleanupStorage`; `AddOperation` (src/operation.rs:635-643) inserts
it, so unused targets have none. The workflow is fixed once it runs. -/
structure Config where
  net : Net
  entry : Nat
  branches : List Branch
  self : Nat
  cleanable : Nat → Bool

/-- The state of a trim. `inputs` is its `InputStorage` (session, data; oldest first), `nodes`
that of `TrimStorage`, `next` the next cleanup id, `holding` the `HoldingStorage` (cleanup id,
session, data), `awaiting` the `CleanupContents`. `cleaning` are the cleanups (id, operation,
session) that were begun at operations which have not reported back, `finished` the cleanups
in the roster (id, session). `out` is what was given to the target, `cancelled` the sessions
for which a cancellation was emitted, `disposals` the trimming disposals that were emitted. -/
structure State where
  inputs : List (Nat × Nat) := []
  nodes : Option (Except Invalid (List Nat)) := none
  next : Nat := 0
  holding : List (Nat × Nat × Nat) := []
  awaiting : List (Nat × List Nat) := []
  cleaning : List (Nat × Nat × Nat) := []
  finished : List (Nat × Nat) := []
  out : List (Nat × Nat) := []
  cancelled : List Nat := []
  disposals : List (Nat × List Nat) := []

/-- `Cleanup::notify_cleaned`, src/operation/cleanup.rs:194-206, with
`register_cleanup_of_node`, 149-155. -/
def State.notify (st : State) (id node session : Nat) : State :=
  match st.awaiting.lookup id with
  | none => st
  | some nodes =>
    let left := nodes.filter fun n => n ≠ node
    let rest := st.awaiting.filter fun a => a.1 ≠ id
    if left.isEmpty then
      { st with awaiting := rest, finished := st.finished ++ [(id, session)] }
    else { st with awaiting := (id, left) :: rest }

/-- `Trim::cleanup`, src/operation/operate_trim.rs:181-192, without the notice. -/
def State.clean (st : State) (session : Nat) : State :=
  { st with inputs := st.inputs.filter fun i => i.1 ≠ session,
            holding := st.holding.filter fun h => h.2.1 ≠ session }

/-- `OperationCleanup::clean`, src/operation/cleanup.rs:61-78, for one operation. Operations
report back in their own time, see `Op.report`, except for the trim itself. An entity without
`OperationCleanupStorage` does not report at all. -/
def State.cleanNode (c : Config) (st : State) (id session node : Nat) : State :=
  if node = c.self then (st.clean session).notify id node session
  else if c.cleanable node then { st with cleaning := st.cleaning ++ [(id, node, session)] }
  else st

/-- The rest of `Trim::execute` once the operations are known,
src/operation/operate_trim.rs:160-178. -/
def State.trim (c : Config) (st : State) (session data : Nat) (nodes : List Nat) : State :=
  let id := st.next
  let st : State :=
    { st with next := st.next + 1,
              holding := (id, session, data) :: st.holding,
              awaiting := (id, nodes) :: st.awaiting }
  nodes.foldl (fun st n => st.cleanNode c id session n) st

/-- `Trim::execute`, src/operation/operate_trim.rs:112-179. -/
def State.execute (c : Config) (st : State) : State :=
  match st.inputs with
  | [] => st
  | (session, data) :: rest =>
    let st := { st with inputs := rest }
    match st.nodes with
    | some (.ok nodes) => st.trim c session data nodes
    | some (.error _) => { st with cancelled := st.cancelled ++ [session] }
    | none =>
      match calculateNodes c.net c.entry c.branches with
      | none => st
      | some (.ok nodes) => { st with nodes := some (.ok nodes) }.trim c session data nodes
      | some (.error e) =>
        { st with nodes := some (.error e), cancelled := st.cancelled ++ [session] }

/-- `Cleanup::trigger`, src/operation/cleanup.rs:208-244, of the next finished cleanup, with
`finalize_trim`, src/operation/operate_trim.rs:204-240. -/
def State.finish (st : State) : State :=
  match st.finished with
  | [] => st
  | (id, cleaned) :: rest =>
    let st := { st with finished := rest, awaiting := st.awaiting.filter fun a => a.1 ≠ id }
    match st.holding.lookup id with
    | none => st
    | some (session, data) =>
      let nodes :=
        match st.nodes with
        | some (.ok nodes) => nodes
        | _ => []
      { st with holding := st.holding.filter fun h => h.1 ≠ id,
                disposals := st.disposals ++ [(cleaned, nodes)],
                out := st.out ++ [(session, data)] }

/-- An operation reports that it is clean. -/
def State.report (st : State) (id node : Nat) : State :=
  match st.cleaning.find? fun k => k.1 = id && k.2.1 = node with
  | none => st
  | some k => { st with cleaning := st.cleaning.erase k }.notify id node k.2.2

/-- `Trim::is_reachable`, src/operation/operate_trim.rs:194-200; `upstream` is the answer of
the inputs of the trim. -/
def State.isReachable (st : State) (session : Nat) (upstream : Bool) : Bool :=
  (st.inputs.any fun i => i.1 = session) || upstream

/-- What can happen to a trim: a message arrives, it is executed, an operation reports back, a
finished cleanup is handled, another cleaner (the scope, or another trim) cleans the trim. -/
inductive Op where
  | input (session data : Nat)
  | execute
  | report (id node : Nat)
  | finish
  | clean (session : Nat)
  deriving DecidableEq, Repr

/-- One step. -/
def State.step (c : Config) (st : State) : Op → State
  | .input session data => { st with inputs := st.inputs ++ [(session, data)] }
  | .execute => st.execute c
  | .report id node => st.report id node
  | .finish => st.finish
  | .clean session => st.clean session

/-- A run from the start. -/
def run (c : Config) (ops : List Op) : State := ops.foldl (State.step c) {}

end Verif.Trim
