import Verif.Diagram.Schema

/-
Model of the diagram builder: `create_workflow`, src/diagram/workflow_builder.rs:728-940, the
`build_diagram_operation` of the operations, and the `connect_into_target` of the connectors.
-/
namespace Verif.Diagram

/-- The parts of the registry that the builder asks. `ser`, `de`, `str`: the type can be
serialized, deserialized, turned into a string. `clone`: it can be cloned. `parts`: the output
types of fork-result or unzip. `access`, `listen`: for a target type, the message type that the
buffer access node takes, and the hint for each of the buffers (the layouts accept a buffer of
the type of an exact hint, and any buffer for a fallback hint). `join`: the hints of the layout
that messages of this type are joined from. `jsonBuf`: buffers of this type can be used as JSON
buffers. `errTy`: the type of the errors of the converters. -/
structure Registry where
  ser : Ty → Bool
  de : Ty → Bool
  str : Ty → Bool
  clone : Ty → Bool
  parts : Ty → Option (List Ty)
  access : Ty → Option (Ty × List Hint)
  listen : Ty → Option (List Hint)
  join : Ty → Option (List Hint)
  jsonBuf : Ty → Bool
  errTy : Ty

/-- `UnfinishedOperation`, src/diagram/workflow_builder.rs:943-953. -/
structure UOp where
  id : Name
  ns : List Name
  schema : Schema
  scope : Nat
  deriving Repr

/-- The calls that an operation makes on its context while it is built:
`add_output_into_target`, `impl_connect_into_target`, an insertion into `buffers`, an insertion
into `buffer_hints`, `add_child_operation`, and the creation of a new scope. -/
inductive Act where
  | out (to : Ref) (ty : Ty) (scope : Nat)
  | target (r : Ref) (c : Conn) (scope : Nat)
  | buffer (r : Ref) (b : BufRef)
  | hint (r : Ref) (h : Hint)
  | child (u : UOp)
  | newScope
  deriving Repr

/-- `BuildStatus`, src/diagram/workflow_builder.rs:608-625: finished, or deferred with or
without progress. -/
inductive Status where
  | finished
  | deferred (progress : Bool)
  deriving DecidableEq, Repr

/-- `BuildDiagramOperation::build_diagram_operation`: what an operation does with its context,
given the construction so far. -/
abbrev Env := UOp → Cons → Except Err (List Act × Status)

/-! ### The operations -/

/-- `create_buffer_map` for a list of buffers, src/diagram/workflow_builder.rs:340-381. -/
def bufferMap (bufs : List (Ref × BufRef)) : List Ref → Except BufErr (List Ty)
  | [] => .ok []
  | r :: rest =>
    match getBuffer bufs r with
    | .error e => .error e
    | .ok t =>
      match bufferMap bufs rest with
      | .error e => .error e
      | .ok ts => .ok (t :: ts)

/-- `BufferMapLayout::try_from_buffer_map` for a layout with these hints. -/
def layoutOk : List Hint → List Ty → Bool
  | [], [] => true
  | .exact t :: hs, t' :: ts => t = t' && layoutOk hs ts
  | .fallback _ :: hs, _ :: ts => layoutOk hs ts
  | _, _ => false

/-- The first type that can be inferred from the input of a fork-clone or its targets, in this
order, src/diagram/fork_clone_schema.rs:84-99. -/
def firstInferred (c : Cons) : List Ref → Except Err (Option Ty)
  | [] => .ok none
  | r :: rest =>
    match inferInput c r with
    | .error e => .error e
    | .ok (some ty) => .ok (some ty)
    | .ok none => firstInferred c rest

/-- The message type of a buffer, src/diagram/buffer_schema.rs:115-135. -/
def bufferType (c : Cons) (me : Ref) (serialize : Bool) : Except Err (Option Ty) :=
  if serialize then .ok (some json)
  else
    match inferInput c me with
    | .error e => .error e
    | .ok (some ty) => .ok (some ty)
    | .ok none => inferFromHints (hintsOf c.hints me)

/-- The loop over the buffers that are to be cloned from, src/diagram/join_schema.rs:118-129. -/
def checkClones (reg : Registry) (tys : List Ty) : List Nat → Except Err Unit
  | [] => .ok ()
  | i :: rest =>
    match tys[i]? with
    | none => .error .unknownJoinField
    | some ty => if reg.clone ty then checkClones reg tys rest else .error .notCloneable

/-- The type of a join of buffers of these types, if it is known,
src/diagram/join_schema.rs:131-146, with `MessageRegistry::join`
(src/diagram/registration.rs:1191-1202) and the layouts of the type and of `JsonMessage`. -/
def joinType (reg : Registry) (c : Cons) (next : Ref) (serialize : Bool) (tys : List Ty) :
    Except Err (Option Ty) :=
  if serialize then
    if tys.all reg.jsonBuf then .ok (some json) else .error .incompatibleLayout
  else
    match inferInput c next with
    | .error e => .error e
    | .ok none => .ok none
    | .ok (some ty) =>
      match reg.join ty with
      | none => .error .unregistered
      | some hints => if layoutOk hints tys then .ok (some ty) else .error .incompatibleLayout

/-- `redirect_to_child_input`, src/diagram/workflow_builder.rs:520-530. -/
def redirectInput (ns : List Name) (scope : Nat) (sec : Name) (e : Name × Next) : List Act :=
  let p := exposedAndInner ns sec e.1 e.2
  [.target p.1 (.redirect p.2 []) scope]

/-- `redirect_to_child_buffer`, src/diagram/workflow_builder.rs:533-556. -/
def redirectBuffer (ns : List Name) (scope : Nat) (sec : Name) (e : Name × Next) : List Act :=
  let p := exposedAndInner ns sec e.1 e.2
  [.target p.1 (.redirect p.2 []) scope, .buffer p.1 (.ref p.2)]

/-- `redirect_exposed_output_to_sibling`, src/diagram/workflow_builder.rs:567-585, to the
connected sibling, or to `dispose` (src/diagram/section_schema.rs:180-190). -/
def redirectOutput (ns : List Name) (scope : Nat) (sec : Name) (connect : List (Name × Next))
    (out : Name) : Act :=
  let sibling := (connect.lookup out).getD .dispose
  .target (outputSlot ns sec out) (.redirect (intoRef ns (Ref.ofNext sibling)) []) scope

/-- `build_diagram_operation` of the operations: src/diagram/node_schema.rs:83-116,
src/diagram/fork_clone_schema.rs:79-112, src/diagram/fork_result_schema.rs:68-94 and
src/diagram/unzip_schema.rs:94-123, src/diagram/buffer_schema.rs:110-146, 209-236 and 293-319,
src/diagram/join_schema.rs:103-149, src/diagram/transform_schema.rs:105-147, src/diagram/stream_out_schema.rs:75-85,
src/diagram/section_schema.rs:108-200, src/diagram/scope_schema.rs:131-179. Nodes and buffers
that are created have no other effect on the construction than the input and the outputs they
provide. -/
def build (reg : Registry) (ts : List (Name × Template)) (onErr : Ref) : Env := fun u c =>
  let into (n : Next) := intoRef u.ns (Ref.ofNext n)
  let me := intoRef u.ns (Ref.ofNext (.name u.id))
  match u.schema with
  | .node inTy outTy next streams =>
    .ok (.target me (.slot inTy u.scope []) u.scope :: .out (into next) outTy u.scope ::
      streams.map (fun s => .out (into s.2) s.1 u.scope), .finished)
  | .forkClone next =>
    match firstInferred c (me :: next.map into) with
    | .error e => .error e
    | .ok none => .ok ([], .deferred false)
    | .ok (some ty) =>
      if reg.clone ty then
        .ok (.target me (.slot ty u.scope []) u.scope ::
          next.map (fun n => .out (into n) ty u.scope), .finished)
      else .error .unregistered
  | .parts next =>
    match inferInput c me with
    | .error e => .error e
    | .ok none => .ok ([], .deferred false)
    | .ok (some ty) =>
      match reg.parts ty with
      | none => .error .unregistered
      | some tys =>
        if tys.length ≠ next.length then .error .wrongArity
        else
          .ok (.target me (.slot ty u.scope []) u.scope ::
            (next.zip tys).map (fun p => .out (into p.1) p.2 u.scope), .finished)
  | .buffer serialize =>
    match bufferType c me serialize with
    | .error e => .error e
    | .ok none => .ok ([], .deferred false)
    | .ok (some ty) =>
      .ok ([.target me (.slot ty u.scope []) u.scope, .buffer me (.value ty)], .finished)
  | .access next buffers =>
    match inferInput c (into next) with
    | .error e => .error e
    | .ok none => .ok ([], .deferred false)
    | .ok (some ty) =>
      match reg.access ty with
      | none => .error .unregistered
      | some (msg, hints) =>
        if hints.length ≠ buffers.length then .error .incompatibleLayout
        else
          let hs : List Act := (buffers.zip hints).map fun p => .hint (into p.1) p.2
          match bufferMap c.bufs (buffers.map into) with
          | .error _ => .ok (hs, .deferred false)
          | .ok tys =>
            if layoutOk hints tys then
              .ok (hs ++ [.target me (.slot msg u.scope []) u.scope,
                .out (into next) ty u.scope], .finished)
            else .error .incompatibleLayout
  | .listen next buffers =>
    match inferInput c (into next) with
    | .error e => .error e
    | .ok none => .ok ([], .deferred false)
    | .ok (some ty) =>
      match reg.listen ty with
      | none => .error .unregistered
      | some hints =>
        if hints.length ≠ buffers.length then .error .incompatibleLayout
        else
          let hs : List Act := (buffers.zip hints).map fun p => .hint (into p.1) p.2
          match bufferMap c.bufs (buffers.map into) with
          | .error _ => .ok (hs, .deferred false)
          | .ok tys =>
            if layoutOk hints tys then
              .ok (hs ++ [.out (into next) ty u.scope], .finished)
            else .error .incompatibleLayout
  | .join next buffers clone serialize =>
    if buffers.isEmpty then .error .emptyJoin
    else
      match bufferMap c.bufs (buffers.map into) with
      | .error _ => .ok ([], .deferred false)
      | .ok tys =>
        match checkClones reg tys clone with
        | .error e => .error e
        | .ok () =>
          match joinType reg c (into next) serialize tys with
          | .error e => .error e
          | .ok none => .ok ([], .deferred false)
          | .ok (some ty) => .ok ([.out (into next) ty u.scope], .finished)
  | .transform next onError =>
    -- `add_output_into_target` resolves the error target once more (lines 124-136)
    let errorTarget := (onError.map into).getD onErr
    .ok ([.out (intoRef u.ns errorTarget) reg.errTy u.scope,
      .target me (.slot json u.scope []) u.scope, .out (into next) json u.scope], .finished)
  | .streamOut name =>
    .ok ([.target me (.redirect (intoRef u.ns (.streamOut [] name)) []) u.scope], .finished)
  | .template t connect =>
    match ts.lookup t with
    | none => .error (.unknownTemplate t)
    | some section_ =>
      if connect.all (fun e => section_.outputs.contains e.1) then
        .ok (section_.ops.map (fun e => .child ⟨e.1, childNs u.ns u.id, e.2, u.scope⟩) ++
          section_.inputs.flatMap (redirectInput u.ns u.scope u.id) ++
          section_.buffers.flatMap (redirectBuffer u.ns u.scope u.id) ++
          section_.outputs.map (redirectOutput u.ns u.scope u.id connect) ++
          [.target (intoRef u.ns (.terminate [u.id])) (.redirect (into .terminate) []) u.scope],
          .finished)
      else .error .unknownOutput
  | .scope start next streams ops =>
    let inner := c.fresh
    .ok (.newScope ::
      streams.map (fun s => .target (intoRef u.ns (.streamOut [u.id] s.1))
        (.hop inner u.scope (into s.2) none none) u.scope) ++
      ops.map (fun e => .child ⟨e.1, childNs u.ns u.id, e.2, inner⟩) ++
      [.target me (.hop u.scope inner (intoChildRef u.ns u.id (Ref.ofNext start)) none
          (some (intoRef u.ns (.terminate [u.id])))) u.scope,
        .target (intoRef u.ns (.terminate [u.id])) (.hop inner u.scope (into next) none none)
          u.scope], .finished)

/-! ### The state of `create_workflow` -/

/-- One connection that was made: the output, the target it was connected into, and the scopes
of the two ends of each `Connect` command (more than one when a converter was created). -/
structure Link where
  out : Out
  into : Ref
  edges : List (Nat × Nat)
  deriving DecidableEq, Repr

/-- The state of `create_workflow`. The fields from `made` on only record what happens: the
outputs with the target named for them, the connections, the outputs that were connected to
`dispose`, the outputs that were overwritten by `HashMap::extend`, and the operations that
finished building. -/
structure St where
  c : Cons
  children : List UOp
  made : List (Out × Ref)
  links : List Link
  disposed : List (Out × Ref)
  lost : List (Out × Ref)
  done : List UOp
  deriving Repr

/-- `outputs_into_target.entry(target).or_default().push(output)`. -/
def pushOut : List (Ref × List Out) → Ref → Out → List (Ref × List Out)
  | [], r, o => [(r, [o])]
  | (k, os) :: rest, r, o =>
    if k = r then (k, os ++ [o]) :: rest else (k, os) :: pushOut rest r o

/-- One call on the context, see `Act`. -/
def act (s : St) : Act → Except Err St
  | .out to ty scope =>
    let o : Out := ⟨s.c.fresh, ty, scope⟩
    .ok { s with
      c := { s.c with outs := pushOut s.c.outs to o, fresh := s.c.fresh + 1 }
      made := s.made ++ [(o, to)] }
  | .target r conn scope =>
    match s.c.targets.lookup r with
    | some _ => .error (.duplicateInputs r)
    | none => .ok { s with c := { s.c with targets := s.c.targets ++ [(r, ⟨conn, scope⟩)] } }
  | .buffer r b =>
    match s.c.bufs.lookup r with
    | some _ => .error (.duplicateBuffers r)
    | none => .ok { s with c := { s.c with bufs := s.c.bufs ++ [(r, b)] } }
  | .hint r h => .ok { s with c := { s.c with hints := s.c.hints ++ [(r, h)] } }
  | .child u => .ok { s with children := s.children ++ [u] }
  | .newScope => .ok { s with c := { s.c with fresh := s.c.fresh + 1 } }

/-- The calls on the context, one after the other. -/
def acts : St → List Act → Except Err St
  | s, [] => .ok s
  | s, a :: rest =>
    match act s a with
    | .error e => .error e
    | .ok s' => acts s' rest

/-! ### Connecting outputs -/

/-- What `connect_into_target` does with an output: connect it, with further outputs that are
created on the way; drop it; or pass it on to another target. -/
inductive Joined where
  | link (conn : Conn) (extra : List (Ref × Ty × Nat)) (edges : List (Nat × Nat))
  | dispose
  | redirect (conn : Conn) (to : Ref)
  deriving DecidableEq, Repr

/-- `connect_into_target` of `ImplicitSerialization`, `ImplicitDeserialization`, `BasicConnect`,
src/diagram/serialization.rs:233-280 and 315-359, src/diagram/workflow_builder.rs:1128-1136.
`at_` is the scope in which converters are created. -/
def connectSlot (reg : Registry) (onErr : Ref) (at_ : Nat) (ty : Ty) (scope : Nat)
    (conv : List Ty) (o : Out) :
    Except Err (List Ty × List (Ref × Ty × Nat) × List (Nat × Nat)) :=
  if o.ty = ty then .ok (conv, [], [(o.scope, scope)])
  else if ty = json then
    if o.ty ∈ conv then .ok (conv, [], [(o.scope, at_)])
    else if reg.ser o.ty then
      .ok (o.ty :: conv, [(onErr, reg.errTy, at_)], [(at_, scope), (o.scope, at_)])
    else .error .notSerializable
  else if reg.de ty ∧ o.ty = json then
    if json ∈ conv then .ok (conv, [], [(o.scope, at_)])
    else .ok (json :: conv, [(onErr, reg.errTy, at_)], [(at_, scope), (o.scope, at_)])
  else .error .typeMismatch

/-- `ConnectIntoTarget::connect_into_target` of the connectors, see `Conn`. -/
def connect (reg : Registry) (onErr : Ref) (at_ : Nat) (conn : Conn) (o : Out) :
    Except Err Joined :=
  match conn with
  | .slot ty scope conv =>
    match connectSlot reg onErr at_ ty scope conv o with
    | .error e => .error e
    | .ok (conv', extra, edges) => .ok (.link (.slot ty scope conv') extra edges)
  | .dispose => .ok .dispose
  | .cancel scope conv =>
    if reg.str o.ty ∨ o.ty = json then .ok (.link (.cancel scope conv) [] [(o.scope, scope)])
    else if o.ty ∈ conv then .ok (.link (.cancel scope conv) [] [(o.scope, at_)])
    else if reg.ser o.ty then
      .ok (.link (.cancel scope (o.ty :: conv)) [(onErr, reg.errTy, at_)]
        [(at_, scope), (o.scope, at_)])
    else .ok (.link (.cancel scope (o.ty :: conv)) [] [(at_, scope), (o.scope, at_)])
  | .redirect to seen =>
    if o.id ∈ seen then .error .circularRedirect
    else .ok (.redirect (.redirect to (o.id :: seen)) to)
  | .hop inScope outScope to none mate =>
    .ok (.link (.hop inScope outScope to (some (o.ty, [])) mate) [(to, o.ty, outScope)]
      [(o.scope, inScope)])
  | .hop inScope outScope to (some (ty, conv)) mate =>
    match connectSlot reg onErr at_ ty inScope conv o with
    | .error e => .error e
    | .ok (conv', extra, edges) =>
      .ok (.link (.hop inScope outScope to (some (ty, conv')) mate) extra edges)

/-- The state of one pass over the outputs: `connector_construction.outputs_into_target`,
`deferred_connections`, the next entity, and the records of `St`. -/
structure Pass where
  next : List (Ref × List Out)
  deferred : List (Ref × List Out)
  targets : List (Ref × Target)
  fresh : Nat
  progress : Bool
  made : List (Out × Ref)
  links : List Link
  disposed : List (Out × Ref)
  deriving Repr

/-- The outputs that a connector creates, added to their targets. -/
def addExtra : Pass → List (Ref × Ty × Nat) → Pass
  | p, [] => p
  | p, (to, ty, scope) :: rest =>
    let o : Out := ⟨p.fresh, ty, scope⟩
    addExtra { p with
      next := pushOut p.next to o
      fresh := p.fresh + 1
      made := p.made ++ [(o, to)] } rest

/-- `*target = t`, for a key that is present. -/
def setTarget (targets : List (Ref × Target)) (r : Ref) (t : Target) : List (Ref × Target) :=
  targets.map fun e => if e.1 = r then (r, t) else e

/-- The loop over the outputs of one target, src/diagram/workflow_builder.rs:871-877. -/
def connectAll (reg : Registry) (onErr : Ref) (r : Ref) :
    Target → List Out → Pass → Except Err Pass
  | t, [], p => .ok { p with targets := setTarget p.targets r t }
  | t, o :: rest, p =>
    match connect reg onErr t.scope t.conn o with
    | .error e => .error e
    | .ok (.link conn extra edges) =>
      connectAll reg onErr r { t with conn := conn } rest
        (addExtra { p with progress := true, links := p.links ++ [⟨o, r, edges⟩] } extra)
    | .ok .dispose =>
      connectAll reg onErr r t rest
        { p with progress := true, disposed := p.disposed ++ [(o, r)] }
    | .ok (.redirect conn to) =>
      connectAll reg onErr r { t with conn := conn } rest
        { p with progress := true, next := pushOut p.next to o }

/-- The loop over the drained outputs, src/diagram/workflow_builder.rs:834-878. `busy`: there
are unfinished operations. -/
def drain (reg : Registry) (onErr : Ref) (busy : Bool) :
    List (Ref × List Out) → Pass → Except Err Pass
  | [], p => .ok p
  | (r, os) :: rest, p =>
    match p.targets.lookup r with
    | none =>
      if busy then drain reg onErr busy rest { p with deferred := p.deferred ++ [(r, os)] }
      else .error (.unknownOperation r)
    | some t =>
      match connectAll reg onErr r t os p with
      | .error e => .error e
      | .ok p' => drain reg onErr busy rest p'

/-- `HashMap::extend`: the entries of the second map replace the entries of the first. -/
def extend {α : Type} (m : List (Ref × α)) (more : List (Ref × α)) : List (Ref × α) :=
  m.filter (fun e => (more.lookup e.1).isNone) ++ more

/-- The outputs that disappear in `extend`. -/
def overwritten (m more : List (Ref × List Out)) : List (Out × Ref) :=
  (m.filter (fun e => (more.lookup e.1).isSome)).flatMap fun e => e.2.map fun o => (o, e.1)

/-- One round of the inner loop, src/diagram/workflow_builder.rs:834-892: the outputs are
drained in the order that `ord` gives. Returns whether there are new connections, and whether
progress was made. -/
def pass (reg : Registry) (onErr : Ref)
    (ord : List (Ref × List Out) → List (Ref × List Out)) (busy : Bool) (s : St) :
    Except Err (St × Bool × Bool) :=
  match drain reg onErr busy (ord s.c.outs)
    { next := [], deferred := [], targets := s.c.targets, fresh := s.c.fresh, progress := false,
      made := s.made, links := s.links, disposed := s.disposed } with
  | .error e => .error e
  | .ok p =>
    .ok ({ s with
      c := { s.c with
        targets := p.targets
        outs := extend p.next p.deferred
        fresh := p.fresh }
      made := p.made
      links := p.links
      disposed := p.disposed
      lost := s.lost ++ overwritten p.next p.deferred }, !p.next.isEmpty, p.progress)

/-- The order in which the hash map of outputs is drained, for each number of rounds left. -/
abbrev Order := Nat → List (Ref × List Out) → List (Ref × List Out)

/-- The inner loop, src/diagram/workflow_builder.rs:833-904. The first argument is the number
of rounds that are left of `MAX_ITERATIONS`. -/
def inner (reg : Registry) (onErr : Ref) (ord : Order) (busy : Bool) :
    Nat → St → Bool → Except Err (St × Bool × Nat)
  | 0, s, _ =>
    match pass reg onErr (ord 0) busy s with
    | .error e => .error e
    | .ok _ => .error .excessive
  | n + 1, s, progress =>
    match pass reg onErr (ord (n + 1)) busy s with
    | .error e => .error e
    | .ok (s', more, progress') =>
      if more then inner reg onErr ord busy n s' (progress || progress')
      else .ok (s', progress || progress', n)

/-- The loop over the unfinished operations, src/diagram/workflow_builder.rs:791-825. Returns
the state, the deferred operations, and whether progress was made. -/
def buildAll (env : Env) : List UOp → St → List UOp → Bool → Except Err (St × List UOp × Bool)
  | [], s, deferred, progress => .ok (s, deferred, progress)
  | u :: rest, s, deferred, progress =>
    match env u s.c with
    | .error e => .error e
    | .ok (as, status) =>
      match acts s as with
      | .error e => .error e
      | .ok s' =>
        let deferred' := deferred ++ s'.children
        let progress' := progress || !s'.children.isEmpty
        match status with
        | .finished => buildAll env rest { s' with children := [], done := s'.done ++ [u] } deferred' true
        | .deferred q =>
          buildAll env rest { s' with children := [] } (deferred' ++ [u]) (progress' || q)

/-- `DiagramConstruction::has_outputs`, src/diagram/workflow_builder.rs:77-85. -/
def hasOutputs (s : St) : Bool := s.c.outs.any fun e => !e.2.isEmpty

/-- The outer loop, src/diagram/workflow_builder.rs:789-923. The second argument is the number
of rounds that are left of `MAX_ITERATIONS`. -/
def outer (env : Env) (reg : Registry) (onErr : Ref) (ord : Order) :
    Nat → Nat → List UOp → St → Except Err St
  | 0, _, _, _ => .error .fuel
  | fuel + 1, left, unfinished, s =>
    if unfinished.isEmpty && !hasOutputs s then .ok s
    else
      match buildAll env unfinished s [] false with
      | .error e => .error e
      | .ok (s1, unfinished', progress) =>
        match inner reg onErr ord (!unfinished'.isEmpty) left s1 progress with
        | .error e => .error e
        | .ok (s2, progress', left') =>
          if progress' then
            match left' with
            | 0 => .error .excessive
            | left'' + 1 => outer env reg onErr ord fuel left'' unfinished' s2
          else .error .halted

/-- Whether the connector was given a connection. -/
def Conn.connected : Conn → Bool
  | .hop _ _ _ c _ => c.isSome
  | _ => true

/-- `is_finished` of the connectors, src/diagram/workflow_builder.rs:925-933: only
`ConnectScopeRequest` has one (src/diagram/scope_schema.rs:230-232); the scope is finished when
its request and its response were set. -/
def finished (targets : List (Ref × Target)) : Bool :=
  targets.all fun e =>
    match e.2.conn with
    | .hop _ _ _ c (some mate) =>
      c.isSome && ((targets.lookup mate).map fun t => t.conn.connected).getD false
    | _ => true

/-- `create_workflow` from the unfinished operations on,
src/diagram/workflow_builder.rs:789-940. -/
def run (env : Env) (reg : Registry) (onErr : Ref) (ord : Order) (max : Nat) (ops : List UOp)
    (s : St) : Except Err St :=
  match outer env reg onErr ord (max + 1) max ops s with
  | .error e => .error e
  | .ok s' => if finished s'.c.targets then .ok s' else .error .unfinishedScope

/-- The types of the workflow: request, response, streams out. -/
structure Io where
  request : Ty
  response : Ty
  streams : List (Name × Ty)

/-- `initialize_builtin_operations`, src/diagram/workflow_builder.rs:992-1035. The root scope
has the number 0. -/
def builtins (start : Next) (io : Io) : List Act :=
  .out (Ref.ofNext start) io.request 0 ::
    .target (.terminate []) (.slot io.response 0 []) 0 ::
    io.streams.map (fun s => .target (.streamOut [] s.1) (.slot s.2 0 []) 0) ++
    [.target .dispose .dispose 0, .target (.cancel []) (.cancel 0 []) 0]

/-- The state before `initialize_builtin_operations`. -/
def St.empty : St := ⟨⟨[], [], [], [], 1⟩, [], [], [], [], [], []⟩

/-- `Diagram`, src/diagram.rs. -/
structure Diagram where
  start : Next
  ops : List (Name × Schema)
  templates : List (Name × Template)
  onErr : Option Next
  deriving Repr

/-- The target of implicit errors, src/diagram/workflow_builder.rs:745-751. -/
def Diagram.errRef (d : Diagram) : Ref := (d.onErr.map Ref.ofNext).getD (.cancel [])

/-- `create_workflow`, src/diagram/workflow_builder.rs:728-940. The names of operations are
assumed valid (`validate_operation_names`). -/
def create (reg : Registry) (io : Io) (ord : Order) (max : Nat) (d : Diagram) : Except Err St :=
  match validateUsage d.templates (directUses d.ops) with
  | .error e => .error e
  | .ok () =>
    match acts St.empty (builtins d.start io) with
    | .error e => .error e
    | .ok s =>
      run (build reg d.templates d.errRef) reg d.errRef ord max
        (d.ops.map fun e => ⟨e.1, [], e.2, 0⟩) s

end Verif.Diagram
