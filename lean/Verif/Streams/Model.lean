import Verif.Input.Model

/-
Model of streams: the targets of the streams of a node, the three kinds of stream
(anonymous, statically named, dynamically named), the three ways in which a provider sends
items (asynchronous channel, blocking buffer, deferred buffer of a continuous service), the
redirections of streams out of workflows and scopes, and the bookkeeping of which streams a
service offers.

Sources: src/stream.rs, src/stream/*.rs, macros/src/derive_stream_pack.rs,
src/operation/scope.rs:1985-2210, src/service.rs:119-185, src/service/discovery.rs.
-/
namespace Verif.Streams

open Verif.Input

/-- Rust types as far as `TypeId` is concerned: `named t` is `NamedValue<t>`
(src/stream/named_stream.rs:212-217), every other type is some `base n`. -/
inductive Ty where
  | base (n : Nat)
  | named (t : Ty)
  deriving DecidableEq, Repr

/-- Values with their types: `named` is a `NamedValue { name, value }`. -/
inductive Val (A : Type) where
  | atom (t : Nat) (a : A)
  | named (name : String) (value : Val A)
  deriving DecidableEq, Repr

def Val.ty {A : Type} : Val A → Ty
  | .atom t _ => .base t
  | .named _ v => .named v.ty

/-- An implementation of `StreamEffect`, src/stream.rs:66-76: the implementing type `S`,
`S::Input`, `S::Output` and `S::side_effect`. Changes that a user's `side_effect` may make to
the world are not modelled, only its result is. -/
structure Effect (A : Type) where
  self : Ty
  input : Ty
  output : Ty
  run : Val A → Except Err (Val A)

/-- `StreamOf<T>`, src/stream.rs:81-112. -/
def streamOf {A : Type} (self t : Nat) : Effect A :=
  ⟨.base self, .base t, .base t, fun v => .ok v⟩

/-- `StreamTargetMap`, src/stream/stream_target_map.rs:33-37. The hash maps are association
lists; `find?` is a lookup. -/
structure TargetMap where
  anonymous : List (Ty × Nat) := []
  named : List (String × Ty × Nat) := []
  deriving DecidableEq, Repr

/-- `get_anonymous`, src/stream/stream_target_map.rs:93-95. -/
def TargetMap.getAnonymous (m : TargetMap) (t : Ty) : Option Nat :=
  (m.anonymous.find? fun p => p.1 = t).map (·.2)

/-- `get_named`, src/stream/stream_target_map.rs:97-103. -/
def TargetMap.getNamed (m : TargetMap) (t : Ty) (name : String) : Option Nat :=
  ((m.named.find? fun p => p.1 = name).filter fun p => p.2.1 = t).map (·.2.2)

/-- `add_anonymous`, src/stream/stream_target_map.rs:40-62. The boolean says whether a
`DuplicateStream` error was queued. -/
def TargetMap.addAnonymous (m : TargetMap) (t : Ty) (target : Nat) : TargetMap × Bool :=
  match m.anonymous.find? fun p => p.1 = t with
  | none => ({ m with anonymous := m.anonymous ++ [(t, target)] }, false)
  | some _ => (m, true)

/-- `add_named`, src/stream/stream_target_map.rs:64-87. -/
def TargetMap.addNamed (m : TargetMap) (name : String) (t : Ty) (target : Nat) :
    TargetMap × Bool :=
  match m.named.find? fun p => p.1 = name with
  | none => ({ m with named := m.named ++ [(name, t, target)] }, false)
  | some _ => (m, true)

/-- `NamedTarget`, src/stream/named_stream.rs:279-285. -/
inductive NamedTarget where
  | namedValue (e : Nat)
  | value (e : Nat)
  deriving DecidableEq, Repr

/-- `get_named_or_anonymous`, src/stream/stream_target_map.rs:105-116. -/
def TargetMap.getNamedOrAnonymous (m : TargetMap) (t : Ty) (name : String) :
    Option NamedTarget :=
  ((m.getNamed t name).map .value).or
    (((m.getAnonymous (.named t)).map .namedValue).or ((m.getAnonymous t).map .value))

/-- `NamedStreamTargets`, src/stream/named_stream.rs:228-236. -/
structure Targets where
  specific : List (String × Nat) := []
  general : Option Nat := none
  anonymous : Option Nat := none
  deriving DecidableEq, Repr

/-- `HashMap::insert` on an association list. -/
def hmInsert (name : String) (e : Nat) : List (String × Nat) → List (String × Nat)
  | [] => [(name, e)]
  | p :: rest => if p.1 = name then (name, e) :: rest else p :: hmInsert name e rest

/-- The loop of lines 246-251. -/
def specificOf (t : Ty) : List (String × Ty × Nat) → List (String × Nat) → List (String × Nat)
  | [], acc => acc
  | (name, ty, e) :: rest, acc =>
    specificOf t rest (if ty = t then hmInsert name e acc else acc)

/-- `NamedStreamTargets::new`, src/stream/named_stream.rs:239-261. -/
def Targets.new (t : Ty) : Option TargetMap → Targets
  | none => {}
  | some m => ⟨specificOf t m.named [], m.getAnonymous (.named t), m.getAnonymous t⟩

/-- `NamedStreamTargets::get`, src/stream/named_stream.rs:263-276. -/
def Targets.get (g : Targets) (name : String) : Option NamedTarget :=
  (((g.specific.find? fun p => p.1 = name).map (·.2)).map .value).or
    ((g.general.map .namedValue).or (g.anonymous.map .value))

/-- `ExitTarget`, src/operation/scope.rs:1985-1991, the two fields that are used here. -/
structure Exit where
  source : Nat
  parentSession : Nat
  deriving DecidableEq, Repr

/-- The components of an entity that matter here: `InputStorage<T>` for every type `T`,
`UnusedTarget`, `Detached`, `StreamTargetMap`, `ScopeStorage`, `StaticStreamName` or
`StreamNameStorage`, `SingleTargetStorage`, `ExitTargetStorage` and `ParentSession`. -/
structure Node (A : Type) where
  stores : Ty → Option (List (Inp Nat (Val A))) := fun _ => none
  unused : Bool := false
  detached : Option Bool := none
  map : Option TargetMap := none
  scope : Option Nat := none
  name : Option (Option String) := none
  single : Option Nat := none
  exits : Option (List (Nat × Exit)) := none
  parent : Option Nat := none

/-- The world: entities (`none`: despawned), active sessions, `roster.queue`,
`roster.deferred_despawn` and the nodes reported in `UnhandledErrors::broken`. -/
structure World (A : Type) where
  nodes : Nat → Option (Node A)
  active : Nat → Bool
  queue : List Nat := []
  despawn : List Nat := []
  broken : List Nat := []

variable {A : Type}

/-- The node as seen by the functions of src/input.rs instantiated with `T`. -/
def Node.at (n : Node A) (t : Ty) : Verif.Input.Node Nat (Val A) :=
  ⟨n.stores t, n.unused, n.detached, none⟩

def Node.setStore (n : Node A) (t : Ty) (q : Option (List (Inp Nat (Val A)))) : Node A :=
  { n with stores := fun u => if u = t then q else n.stores u }

def World.setNode (w : World A) (e : Nat) (n : Node A) : World A :=
  { w with nodes := fun x => if x = e then some n else w.nodes x }

/-- `world.get_entity_mut(target).or_broken()?.give_input::<T>(session, v, roster)`. -/
def World.give (w : World A) (target session : Nat) (t : Ty) (v : Val A) :
    World A × Option Err :=
  match w.nodes target with
  | none => (w, some .broken)
  | some n =>
    match giveInput (n.at t) (w.active session) session v with
    | .error e => (w, some e)
    | .ok (m, .schedule) =>
      ({ w.setNode target (n.setStore t m.storage) with queue := w.queue ++ [target] }, none)
    | .ok (m, .ignored) => (w.setNode target (n.setStore t m.storage), none)
    | .ok (m, .despawn) =>
      ({ w.setNode target (n.setStore t m.storage) with despawn := w.despawn ++ [target] }, none)

/-- `StreamRequest::send_output::<T>`, src/stream.rs:131-149. -/
def World.sendOutput (w : World A) (target : Option Nat) (session : Nat) (t : Ty) (v : Val A) :
    World A × Option Err :=
  match target with
  | none => (w, none)
  | some e => w.give e session t v

/-- `side_effect` followed by `send_output`, the body shared by
src/stream/anonymous_stream.rs:180-182 and 272-274 and src/stream/stream_channel.rs:49-51. -/
def World.sendAnonymous (w : World A) (e : Effect A) (target : Option Nat) (session : Nat)
    (v : Val A) : World A × Option Err :=
  match e.run v with
  | .error x => (w, some x)
  | .ok o => w.sendOutput target session e.output o

/-- `side_effect` followed by `NamedTarget::send_output` (src/stream/named_stream.rs:295-304)
if there is a target, the body shared by src/stream/named_stream.rs:163-177, 351-357, 462-466
and 534-540 and src/stream/dynamically_named_stream.rs:175-181. -/
def World.sendNamed (w : World A) (e : Effect A) (target : Option NamedTarget) (session : Nat)
    (name : String) (v : Val A) : World A × Option Err :=
  match e.run v with
  | .error x => (w, some x)
  | .ok o =>
    match target with
    | none => (w, none)
    | some (.namedValue t) => w.sendOutput (some t) session (.named e.output) (.named name o)
    | some (.value t) => w.sendOutput (some t) session e.output o

/-- `ReportUnhandled`, src/operation.rs:590-602. -/
def World.report (w : World A) (source : Nat) : Option Err → World A
  | some .broken => { w with broken := w.broken ++ [source] }
  | _ => w

/-- The kinds of stream that occur in a pack: `AnonymousStream<S>` (also what
`#[derive(Stream)]` and `StreamOf` give), a field of a struct with `#[derive(StreamPack)]`,
and `DynamicallyNamedStream<S>`. -/
inductive Stream (A : Type) where
  | anon (e : Effect A)
  | named (name : String) (e : Effect A)
  | dyn (e : Effect A)

def Stream.effect : Stream A → Effect A
  | .anon e => e
  | .named _ e => e
  | .dyn e => e

/-- A `StreamPack`. Every method of the pack of a tuple (src/stream/stream_pack.rs:176-343)
and of a derived struct (macros/src/derive_stream_pack.rs:121-262) calls that of each part in
order, so a pack is the list of its streams. `()` is the empty list. -/
abbrev Pack (A : Type) := List (Stream A)

/-- The call of `map.add_*` that all of `spawn_node_stream(s)`, `take_stream(s)` and
`collect_stream(s)` make: src/stream/anonymous_stream.rs:102, 119, 137,
src/stream/named_stream.rs:82, 95, 115, src/stream/dynamically_named_stream.rs:98, 115, 133. -/
def TargetMap.register (m : TargetMap) (s : Stream A) (target : Nat) : TargetMap × Bool :=
  match s with
  | .anon e => m.addAnonymous e.output target
  | .named name e => m.addNamed name e.output target
  | .dyn e => m.addAnonymous (.named e.output) target

/-- `spawn_node_streams` for a whole pack: `targets` are the entities spawned for the
outputs, one per stream. Gives the map and, in order, the targets reported as duplicates. -/
def registerAll : Pack A → List Nat → TargetMap → TargetMap × List Nat
  | s :: pack, t :: targets, m =>
    let (m, dup) := m.register s t
    let (m, dups) := registerAll pack targets m
    (m, (if dup then [t] else []) ++ dups)
  | _, _, m => (m, [])

/-- One stream as a provider holds it while it runs: the stream with the targets that were
looked up when the request started. This is `StreamChannel`, `NamedStreamChannel` or
`DynamicallyNamedStreamChannel`, and likewise for buffers: `make_stream_channels` and
`make_stream_buffers`, src/stream/anonymous_stream.rs:140-154,
src/stream/named_stream.rs:118-134, src/stream/dynamically_named_stream.rs:136-148. -/
structure Port (A : Type) where
  stream : Stream A
  target : Option Nat
  targets : Targets

def Stream.port (s : Stream A) (m : Option TargetMap) : Port A :=
  match s with
  | .anon e => ⟨s, m.bind fun m => m.getAnonymous e.output, {}⟩
  | .named _ e => ⟨s, none, Targets.new e.output m⟩
  | .dyn e => ⟨s, none, Targets.new e.output m⟩

/-- One item put into a stream: for a dynamically named stream a name and a value, for the
other kinds only the value counts. -/
abbrev Item (A : Type) := String × Val A

/-- What happens to one item: src/stream/anonymous_stream.rs:180-181,
src/stream/named_stream.rs:154-176, src/stream/dynamically_named_stream.rs:166-180. -/
def World.sendItem (w : World A) (session : Nat) (p : Port A) (i : Item A) :
    World A × Option Err :=
  match p.stream with
  | .anon e => w.sendAnonymous e p.target session i.2
  | .named name e => w.sendNamed e (p.targets.get name) session name i.2
  | .dyn e => w.sendNamed e (p.targets.get i.1) session i.1 i.2

/-- The same with the error reported. -/
def World.sendReport (w : World A) (source session : Nat) (p : Port A) (i : Item A) :
    World A :=
  (w.sendItem session p i).1.report source (w.sendItem session p i).2

/-- The closures that `send` of a channel puts in the channel, when the world runs them one
after the other: src/stream/stream_channel.rs:33-55, src/stream/named_stream.rs:480-490 and
517-542, src/stream/dynamically_named_stream.rs:236-247. Also the loops over the container
in `SendAnonymousStreams::apply` (src/stream/anonymous_stream.rs:260-277) and
`SendNamedStreams::apply` (src/stream/named_stream.rs:337-360). -/
def World.sendAll (w : World A) (source session : Nat) : List (Port A × Item A) → World A
  | [] => w
  | (p, i) :: rest => (w.sendReport source session p i).sendAll source session rest

/-- A stream buffer: a port with what was put in so far; `kept` says that somebody still
holds another clone of the `Rc` container when the provider has returned. -/
structure Buffer (A : Type) where
  port : Port A
  items : List (Item A) := []
  kept : Bool := false

/-- `send` on the buffer of the `k`-th stream of the pack, src/stream/stream_buffer.rs:43-45,
src/stream/named_stream.rs:556-558, src/stream/dynamically_named_stream.rs:273-275. -/
def bufferSend (bs : List (Buffer A)) (k : Nat) (i : Item A) : List (Buffer A) :=
  match bs[k]? with
  | none => bs
  | some b => bs.set k { b with items := b.items ++ [i] }

/-- A provider's calls of `send`: position in the pack and item. -/
def bufferSends (bs : List (Buffer A)) : List (Nat × Item A) → List (Buffer A)
  | [] => bs
  | (k, i) :: rest => bufferSends (bufferSend bs k i) rest

/-- `make_stream_buffers` of a pack, src/stream/stream_pack.rs:264-272. -/
def fresh (pack : Pack A) (m : Option TargetMap) : List (Buffer A) :=
  pack.map fun s => ⟨s.port m, [], false⟩

/-- `process_stream_buffers` of a pack, src/stream/stream_pack.rs:274-287 with
src/stream/anonymous_stream.rs:156-190, src/stream/named_stream.rs:136-185,
src/stream/dynamically_named_stream.rs:150-189. Gives the world, the positions of the streams
recorded as unused, and the error if a container could not be unwrapped. -/
def World.process (w : World A) (source session : Nat) :
    Nat → List (Buffer A) → World A × List Nat × Option Err
  | _, [] => (w, [], none)
  | k, b :: bs =>
    if b.kept then (w, [], some .broken)
    else
      let (w, unused, err) :=
        (w.sendAll source session (b.items.map fun i => (b.port, i))).process source session
          (k + 1) bs
      (w, (if b.items.isEmpty then [k] else []) ++ unused, err)

/-- `defer_buffers` of a pack and the application of the commands that it queues,
src/stream/anonymous_stream.rs:192-204, src/stream/named_stream.rs:187-209,
src/stream/dynamically_named_stream.rs:191-203. -/
def World.defer (w : World A) (source session : Nat) : List (Buffer A) → World A
  | [] => w
  | b :: bs =>
    (w.sendAll source session (b.items.map fun i => (b.port, i))).defer source session bs

/-! ### Streams out of workflows and scopes -/

/-- Which redirection an operation is: `NamedStreamRedirect::static_name`,
`NamedStreamRedirect::dynamic` (src/stream/named_stream.rs:363-382),
`AnonymousStreamRedirect` (src/operation/scope.rs:2125-2137; its name is `None` wherever the
code makes one) and `RedirectScopeStream` (src/operation/scope.rs:1993-2005). -/
inductive Redirect (A : Type) where
  | static (name : String) (e : Effect A)
  | dynamic (e : Effect A)
  | anonymous (e : Effect A)
  | scoped (target : Nat) (e : Effect A)

/-- The type of the `InputBundle` inserted by `setup`: src/stream/named_stream.rs:390-405,
src/operation/scope.rs:2142-2147 and 2008-2019. -/
def Redirect.storageTy : Redirect A → Ty
  | .static _ e => e.input
  | .dynamic e => .named e.input
  | .anonymous e => e.input
  | .scoped _ e => e.input

/-- `setup` on the entity of the redirection. -/
def Redirect.setup (r : Redirect A) (n : Node A) : Node A :=
  let n := n.setStore r.storageTy (some [])
  match r with
  | .static name _ => { n with name := some (some name) }
  | .dynamic _ => { n with name := some none }
  | .anonymous _ => { n with name := some none }
  | .scoped target _ => { n with single := some target }

/-- `take_input::<T>` on an entity. -/
def World.take (w : World A) (source : Nat) (t : Ty) : World A × Except Err (Inp Nat (Val A)) :=
  match w.nodes source with
  | none => (w, .error .broken)
  | some n =>
    match takeInput (n.at t) with
    | .error e => (w, .error e)
    | .ok (m, i) => (w.setNode source (n.setStore t m.storage), .ok i)

/-- `world.get::<ExitTargetStorage>(scope).or_broken()?.map.get(&session).or_not_ready()?`
for the scope of `source`, and the `StreamTargetMap` of the exit's source:
src/stream/named_stream.rs:439-451, src/operation/scope.rs:2161-2178. -/
def World.exitOf (w : World A) (source session : Nat) : Except Err (Exit × TargetMap) :=
  match (w.nodes source).bind (·.scope) with
  | none => .error .broken
  | some scope =>
    match (w.nodes scope).bind (·.exits) with
    | none => .error .broken
    | some exits =>
      match exits.find? fun p => p.1 = session with
      | none => .error .notReady
      | some (_, x) =>
        match (w.nodes x.source).bind (·.map) with
        | none => .error .broken
        | some m => .ok (x, m)

/-- `execute` of each redirection. A `NamedValue` taken from the input of a dynamic
redirection is split into name and value; its input storage holds nothing else, so the last
case cannot occur. -/
def Redirect.exec (r : Redirect A) (source : Nat) (w : World A) : World A × Option Err :=
  match w.take source r.storageTy with
  | (w, .error e) => (w, some e)
  | (w, .ok i) =>
    match r with
    -- src/stream/named_stream.rs:407-469
    | .static name e =>
      match w.exitOf source i.session with
      | .error x => (w, some x)
      | .ok (x, m) =>
        w.sendNamed e (m.getNamedOrAnonymous e.output name) x.parentSession name i.data
    | .dynamic e =>
      match i.data with
      | .named name v =>
        match w.exitOf source i.session with
        | .error x => (w, some x)
        | .ok (x, m) =>
          w.sendNamed e (m.getNamedOrAnonymous e.output name) x.parentSession name v
      | .atom _ _ => (w, some .broken)
    -- src/operation/scope.rs:2149-2209 with no name
    | .anonymous e =>
      match w.exitOf source i.session with
      | .error x => (w, some x)
      | .ok (x, m) => w.sendAnonymous e (m.getAnonymous e.output) x.parentSession i.data
    -- src/operation/scope.rs:2021-2053
    | .scoped _ e =>
      match (w.nodes i.session).bind (·.parent) with
      | none => (w, some .broken)
      | some parent =>
        w.sendAnonymous e ((w.nodes source).bind (·.single)) parent i.data

/-- The type with which `is_reachable` and `cleanup` look at the input storage:
`S::Input` of the `StreamRedirect` for a workflow stream (src/operation/scope.rs:2098-2116,
src/stream/named_stream.rs:388, src/operation/scope.rs:2140), but the effect type itself for
a scope stream (src/operation/scope.rs:2055-2073). -/
def Redirect.auditTy : Redirect A → Ty
  | .static _ e => .named e.input
  | .dynamic e => .named e.input
  | .anonymous e => e.input
  | .scoped _ e => e.self

/-- `is_reachable`, src/operation/scope.rs:2055-2066 and 2098-2109; `scopeReachable` is the
answer of `check_upstream(scope)`. -/
def Redirect.isReachable (r : Redirect A) (n : Node A) (session : Nat)
    (scopeReachable : Except Err Bool) : Except Err Bool :=
  match hasInput (n.at r.auditTy) session with
  | .error e => .error e
  | .ok true => .ok true
  | .ok false =>
    match n.scope with
    | none => .error .broken
    | some _ => scopeReachable

/-- `cleanup_inputs` of the session, src/operation/scope.rs:2068-2073 and 2111-2116. -/
def Redirect.cleanup (r : Redirect A) (n : Node A) (session : Nat) : Node A :=
  match n.stores r.auditTy with
  | none => n
  | some q => n.setStore r.auditTy (some (q.filter fun i => !(i.session = session)))

/-! ### Which streams a service offers -/

/-- `StreamAvailability`, src/stream/stream_availability.rs:29-33. -/
structure Avail where
  anonymous : List Ty := []
  named : List (String × Ty) := []
  deriving DecidableEq, Repr

/-- `add_named`, src/stream/stream_availability.rs:40-51, its result ignored. -/
def Avail.addNamed (a : Avail) (name : String) (t : Ty) : Avail :=
  match a.named.find? fun p => p.1 = name with
  | none => { a with named := a.named ++ [(name, t)] }
  | some _ => a

/-- `set_stream_availability`, src/stream/anonymous_stream.rs:206-208,
macros/src/derive_stream_pack.rs:235-239, src/stream/dynamically_named_stream.rs:205-207. -/
def Avail.add (a : Avail) : Stream A → Avail
  | .anon e => { a with anonymous := e.output :: a.anonymous }
  | .named name e => a.addNamed name e.output
  | .dyn e => { a with anonymous := .named e.output :: a.anonymous }

/-- `Streams::set_stream_availability(&mut StreamAvailability::default())`,
src/service/service_builder.rs:137-138, src/workflow.rs:262-263, src/service.rs:171-174. -/
def Avail.of (p : Pack A) : Avail := p.foldl Avail.add {}

/-- `has_named`, src/stream/stream_availability.rs:61-69. -/
def Avail.hasNamed (a : Avail) (name : String) (t : Ty) : Bool :=
  ((a.named.find? fun p => p.1 = name).any fun p => p.2 = t)

/-- `are_streams_available`, src/stream/anonymous_stream.rs:210-212,
macros/src/derive_stream_pack.rs:241-246, src/stream/dynamically_named_stream.rs:209-211,
src/stream/stream_pack.rs:307-312. -/
def Avail.has (a : Avail) : Stream A → Bool
  | .anon e => a.anonymous.contains e.output
  | .named name e => a.hasNamed name e.output
  | .dyn e => a.anonymous.contains e.output

def Avail.hasAll (a : Avail) (p : Pack A) : Bool := p.all a.has

/-- `StreamFilter`, src/stream/stream_filter.rs:57-108: `Require<T>`, `Option<T>` and tuples
of them. -/
inductive Filter (A : Type) where
  | require (p : Pack A)
  | optional (p : Pack A)

def Filter.admits (a : Option Avail) : Filter A → Bool
  | .require p =>
    match a with
    | none => false
    | some a => a.hasAll p
  | .optional _ => true

/-- `ServiceDiscovery::iter`, src/service/discovery.rs:57-64 and 100-124: the services of the
query that pass all filters. -/
def discover (services : List (Nat × Option Avail)) (fs : List (Filter A)) : List Nat :=
  (services.filter fun s => fs.all fun f => f.admits s.2).map (·.1)

/-- `MissingStreamsError`, src/service.rs:120-124. -/
structure Missing where
  anonymous : List Ty
  named : List (String × Ty)
  deriving DecidableEq, Repr

/-- `can_cast_to`, src/stream/stream_availability.rs:71-90. `named_value` of a
`NamedAvailability` is the `NamedValue` of its type (lines 106-113). -/
def Avail.canCastTo (a target : Avail) : Except Missing Unit :=
  let missing : Missing :=
    ⟨a.anonymous.filter fun t => !target.anonymous.contains t,
     a.named.filter fun p =>
      match target.named.find? fun q => q.1 = p.1 with
      | some q => p.2 != q.2
      | none => !target.anonymous.contains (.named p.2)⟩
  if !missing.anonymous.isEmpty || !missing.named.isEmpty then .error missing else .ok ()

/-- `Service::stream_cast`, src/service.rs:164-183. -/
def streamCast (source target : Pack A) : Except Missing Unit :=
  (Avail.of source).canCastTo (Avail.of target)

end Verif.Streams
