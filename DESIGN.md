# Formal model of crossflow (open-rmf/bevy_impulse)

The Rust sources in `/repo/src` are modelled in Lean 4 under `lean/Verif/`.
Nothing is extracted or executed: every model definition cites the file and
lines it was written from, and says so where it simplifies.

## Layout

Each area `X` of the code has a directory `lean/Verif/X/`:

* `Model.lean` (`Refs`, `Schema` and `Build` for diagrams, `Race` for threads
  that wait for a promise) – executable, total functions written from the Rust
  code;
* `Spec.lean` (`BuildSpec`, `RaceSpec`) – the small independent specification
  used in the statements;
* `Props.lean` (`BuildProps`, `ScopeProps`, `TypeProps`, `NameProps`,
  `RaceProps`) – the property theorems, with an `example` that their hypotheses
  are met by a concrete non-trivial state (for diagrams in `Witness.lean`);
* the other files – invariants and helper lemmas.

A theorem whose name ends in `_partial` proves less than the property; the
comment above it says what is missing. A theorem whose name ends in
`_violated` proves that the code as written does not have the property in full:
on a concrete witness, or for all states of some kind. The findings are
collected below.

The theorems about one property all begin with its id. `MANIFEST.json` lists
them with the status of the property; `seeded/LOG.jsonl` lists the edits of the
model that were tried against them. Most of its entries name the first proofs that
broke, which are often those of helper lemmas: that shows that the edit is
noticed, but not by itself that the statement of a property theorem is false of
the edited model. Entries that say "statement evaluated, found false" come from
evaluating the statements on random histories of the edited model. That was done
for C01–C08, C36 and C37.

## Trusted base

* Lean 4.33.0's kernel. Axioms used: at most `propext`, `Classical.choice`,
  `Quot.sound` (checked with `#print axioms` for every theorem in the
  manifest). No axiom is added, there is no `sorry`, and neither `native_decide`
  nor `bv_decide` is used. The models use Lean core only, not Mathlib.
* The reading of `/repo` by which the models were written. The code is not run.
* Bevy ECS: entities with components are modelled as finite maps or association
  lists; `world.get_mut`, `commands`, observers and despawning are modelled by
  their documented effect. Bevy command queues are modelled as FIFO.
* `HashMap`/`HashSet` iteration order is a parameter (any order) wherever the
  outcome can depend on it.
* `Arc` strong counts, `Mutex`, `Condvar`, wakers and mpsc channels are modelled
  by their documented semantics; memory ordering weaker than sequential
  consistency is not modelled.
* Recursion that the code bounds by nothing is bounded in the model by a number
  of rounds; a theorem says that the bound is never the reason for a result
  (C10, C13, C14, C25, C40, C46, C50, C71). A panic is an explicit result.

## What is modelled, and what is not

| area | code | left out |
|----|----|----|
| `Buffer` | `buffer/buffer_storage.rs`: storage of one buffer, all operations, `buffer.rs`: retention | iterators as lists; `Drain` is consumed in full |
| `Input` | `input.rs`: input queue of an operation, sending, taking, cleanup | message types (an operation receives messages of one type) |
| `Flush` | `flush.rs`: `flush_execution_impl`, limits, channels; roster of `operation.rs` | what an operation does is an arbitrary parameter; streams of the unhandled errors |
| `Sched` | `Input` and `Flush` put together: operations are scheduled when something is sent to them | operations that execute another one on the spot |
| `Drop` | `flush.rs`: dropped promises and targets; `series/detach.rs` | what the steps compute |
| `Graph` | `operation.rs`: `is_downstream_of`, `check_reachability` and the `is_reachable` of joins, buffers, gates | reachability of scopes and injections (see `Scope`, `Inject`) |
| `BufNet` | `operate_buffer.rs`, `join.rs`, `listen.rs`, `operate_gate.rs`, `buffering.rs`, `buffer_gate.rs`, key access of `buffer.rs` | nested layouts of a join (a list of buffers); `Buffer` gives the storage |
| `Collect` | `operation/collect.rs` | the answer of the upstream search is part of the event (see `Graph`) |
| `Delivery` | `service/delivery.rs`, the scheduling in `async_srv.rs`, `workflow.rs`, `continuous.rs` | contents of requests, removal of the provider, what a task computes |
| `Continuous` | `service/continuous.rs`: orders, responses, their delayed delivery | several providers at once, streams |
| `Task` | `operation/operate_task.rs`: tasks of a node, their cancellation and cleanup | values, wakers |
| `Reentrant` | `operate_callback.rs`, `service/internal.rs`: requests that cause requests while they are served | what the systems compute |
| `Scope` | `operation/scope.rs`, `operation/cleanup.rs`, the driving parts of `workflow.rs` and `flush.rs` | the operations inside of the scope are the environment |
| `Promise` | `promise.rs`, `promise/private.rs`; `Race*`: waiting threads, condition variable, wakers | poisoned mutexes, timeouts |
| `Fork` | `branching.rs`, `fork_clone.rs`, `fork_unzip.rs`, `spread.rs`, disposals of `disposal.rs` | message types |
| `Split` | `chain/split.rs`, `operate_split.rs`, `diagram/split_schema.rs` | user-written key types only through the laws they need |
| `Streams` | `stream.rs`, `stream/*.rs`, `macros/derive_stream_pack.rs`, stream exits of `scope.rs`, `service/discovery.rs` | message contents |
| `Keys` | `buffer_access_lifecycle.rs`, `buffer_key_builder.rs`, `operate_buffer_access.rs` | access to the data (see `BufNet`) |
| `Inject` | `operation/injection.rs` | the services are the environment |
| `Series` | `series.rs`, `series/*.rs`, `request.rs`, cancellation in `cancel.rs` | detached series and dropped handles (see `Drop`) |
| `Trace` | `trace.rs`, `input.rs` with the feature `trace`, `diagram.rs` (`TraceToggle`) | trace events of operations, session stacks |
| `Residue` | `disposal.rs`, `cleanup.rs`, the `cleanup` of every operation, `scope.rs` (`clear_scope_buffers`, disposals of a cancellation) | what operations keep for a session, what their cleanup removes, which disposals a cancellation lists |
| `Zenoh` | `diagram/zenoh.rs`, `diagram/zenoh/*.rs` | the tasks of the publisher, subscription and querier nodes, their settings, the resource of the session; zenoh itself and the codecs are events and functions |
| `Grpc` | `diagram/grpc.rs` (`execute`, `receive_cancel` and the task around them) | a call of a gRPC node; server, network and timers are events |
| `Trim` | `operate_trim.rs`, `trim.rs` | operations with several scopes |
| `Diagram` | `diagram.rs`: validation of templates; `diagram/workflow_builder.rs`: the build loop, connectors, names, inference; `*_schema.rs` | JSON parsing, configurations, section builders registered in Rust, remote operations; split, unzip and fork-result are one operation with inferred parts; a node is given by its types |
| `Values` | one session with the contents of its messages: `execute` of maps, services, forks, branches, filters, spreads, splits, buffers, joins, the terminal and cancel operations; tasks with streams; `fetch_for_join`; the checks of the scope | keys, gates, collect, injection, inner scopes except as nodes with a task; user code is a function of the message; any order of execution is allowed |
| `Poll` | the single-threaded executor that a flush polls | the futures themselves and the library `async_task`; `spawn`, whose futures go to the task pool of Bevy and not to these channels |
| `Editor` | the frontend of diagram-editor: `loadDiagram`, `buildEdges`, `exportDiagram` with `clearConnections`, `syncEdge` and `syncBufferSelection`, `NodeManager`; `tryCreateEdge`, `validateEdgeSimple`, `getValidEdgeTypes`, `handleNodeChanges`, adding, connecting, rerouting, removing and renaming; the forms of edges; the list of templates; the automatic layout; moving nodes in scopes | editing the operations of a section template (opening, saving, adding and connecting inputs, outputs and buffers is modelled), positions but for the automatic layout and moving nodes in scopes, what the libraries React Flow and dagre do, validation against the schema, names with `:`; maps that are missing are the same as empty ones |
| `Server` | the execution server of diagram-editor: `post_run`, `execute_requests`, `despawn_workflows`, both channels, disconnects, a panic of the app | the debug endpoint, parsing of the request body, what happens inside a workflow (its end is an event) |
| `Many` | a workflow with any number of sessions: the operations of `Flow` on shared queues, task lists, buffers, keys, gates and list of disposals; `begin_scope` with its remembered answer; cleanup of ended sessions | what `Flow` leaves out but for the other sessions; serial services, continuous services |
| `Flow` | one session as a whole: `execute` of map, task, service, fork, branch, filter, spread, split, buffer, join, listen, buffer access, static gate, scope, cancel, terminate; use and drop of buffer keys; disposals; `validate_scope_reachability`; `emit_cancel` | values and their order, other sessions, cleanup; which key is in which message; dynamic gates, collect, trim, injection, continuous services |
| `Wire` | the calls of a builder: `builder.rs`, `builder/connect.rs`, `chain.rs`, `node.rs`, `AddOperation`, `OperateScope::add`, the components that hold connections | message types, the operations themselves; commands are applied at once, not queued; injection, gates, collect, trim wire like a node; cleanup workflows of scopes |
| `Views` | `buffer.rs`, `buffer/any_buffer.rs`, `buffer/json_buffer.rs`, `buffer/buffer_gate.rs`: handles, their calls and what they queue when dropped | lookup of the buffer entity; drain iterators that are not used up; `SystemState` that is dropped loses its commands, as Bevy documents |
| `Refs` | `buffer.rs`, `buffer/any_buffer.rs`, `buffer/json_buffer.rs`, `buffer/fetch_from_buffer.rs`, `buffer/buffer_map.rs`, `buffer/buffering.rs`, `buffer/manage_buffer.rs`, `macros/src/derive_buffer.rs`: references to buffers, conversions, what joins take, layouts and hints | interfaces found in registers are represented by the message type; names of types in errors; serialisation is a partial function; accessors of layouts; tuples of buffers (see `Keys`) |
| `Gone` | `service/internal.rs`, `flush.rs`, `operation/operate_service.rs`, `disposal.rs`, `workflow.rs`: the removal of a service, requests dispatched inside of others; the service itself is the model `Delivery` | data of requests; disposals of a node as seen by its scope (see `Scope`); removal of single components of a service; errors for nodes that are in neither a workflow nor a series |
| `Convert` | `diagram/serialization.rs`, `diagram/workflow_builder.rs:1039-1213`, parts of `diagram/registration.rs`, `node/dyn_node.rs`, `operation/operate_cancel.rs`: implicit conversions of diagram connections | scopes and entities of the converters; what serde does (a parameter); the connection of the error outputs to the error target (see `Diagram`) |
| `Chain` | `chain.rs`, `chain/fork_clone_builder.rs`, `chain/unzip.rs`, `operation/filter.rs`, `operation/branching.rs`, `operation/spread.rs`: the combinators of a chain, what they create and what that does | combinators with buffers, gates, collect, trim, split, scopes, streams or injection; connections are a map (see `Wire`); all messages have one type; a cancelled scope lets the other messages go on |
| `File` | `diagram.rs` and the schemas in `diagram/*_schema.rs`, settings in `buffer.rs`, `buffer/buffer_map.rs`, `workflow.rs`: what is written and read for a diagram as JSON | serde and serde_json as documented (their code is not part of the repository); versions are a parameter with the law that a printed version is parsed again; texts (only their depth), numbers other than `u64`, structs read from arrays, `JsonSchema` |
| `Again` | `service/blocking.rs`, `operation/operate_map.rs` (blocking), `operation/operate_callback.rs`, `callback.rs` (blocking): how the system is taken out and put back | requests during requests (see `Reentrant`), items of streams (see `Streams`), inserting a service again |
| `Register` | `diagram/registration.rs`, `on_register` of `unzip_schema.rs`, `fork_result_schema.rs`, `split_schema.rs`, `register_*` of `serialization.rs` and `fork_clone_schema.rs`, `macros/src/derive_section.rs:55-94`: registrations of messages, nodes and sections | what the functions do (see `Diagram`, `Convert`); schemas, configurations, texts, streams, tracing; the table of section builders |

Not modelled at all: Rust's type-level plumbing (generics, trait objects, derive
macros other than those named above), the text form of JSON and JSON schemas, log
output, the CEL language of transforms, the pages and forms of the diagram editor
other than what is named above, the libraries behind the gRPC and zenoh back ends,
user systems (they are arbitrary parameters), time, `testing.rs`,
`async_execution/*` other than what tasks and `Poll` need.

## Plan per property

| id | model | proof shape |
|----|-------|-------------|
| C01 | `Buffer`: `impl_push` on a newest-first queue per session | closed form of the window, induction over the pushed list |
| C02 | `Buffer`: every operation of `BufferStorage` | refinement to an oldest-first list specification over every operation list |
| C03 | `Buffer` | invariant by induction, except `push_as_oldest` at capacity 0; witness for that case |
| C04 | `Buffer`: sessions as a map | frame lemma per operation |
| C05 | `Buffer`: `drain` with a range | exact behaviour; symmetric ranges agree with the documentation; witness |
| C06 | `Buffer`: operations with their outputs | permutation invariant over every operation list |
| C07, C08 | `Input`: reversed queue | refinement to a list queue; filter lemmas; witness for the order |
| C09 | `Sched` | invariant: scheduled at least as often as inputs wait |
| C10, C11 | `Flush`: one call-out per step | ledger of work over runs with changing limits; off-by-one bound and witness |
| C12 | `Drop` | exact removal for a dropped terminal; dropped promises are ignored |
| C13, C14 | `Graph`: work list and visited map | soundness, completeness with respect to paths; termination measure; witnesses for cycles through joins |
| C15–C18, C48, C53, C54 | `BufNet` | ledgers and invariants over all runs; one execution in any state; witnesses |
| C19, C20 | `Collect` | conservation over event lists; simulation of one session |
| C21–C24, C58, C59 | `Delivery`, three kinds of providers | invariant over event lists, ledger of requests, witnesses |
| C25, C50 | `Reentrant` | induction over trees of requests with a call bound that is never reached |
| C26 | `Continuous` | refinement in calm runs; witnesses otherwise |
| C27–C29 | `Scope`: status machine, awaiting list, finalisation | invariants over event lists; erasure of cleanup requests; witnesses |
| C30, C34, C56, C57 | `Promise` | refinement to a promise that is settled once |
| C31–C33, C55 | `Promise/Race`: small steps of any number of threads | invariants over schedules, measure for progress, witnesses |
| C35, C38 | `Fork` | per message and for the whole queue |
| C36, C37 | `Split` | induction over elements and builder calls |
| C39, C60–C63 | `Streams` | decision logic and ledgers of items, witnesses |
| C40, C41, C68 | `Trim` | graph search correctness against a path specification; ledger of held messages; witnesses |
| C42, C43, C65–C67 | `Series` | invariants of the forest of steps; ledgers; witnesses |
| C44, C69 | `Diagram/Walk`, `Ledger`: the whole build loop | ledger of outputs, invariant of the operations built; witness |
| C45, C46, C51 | `Diagram/Refs`, `Schema` | algebra of names; graph search; inference function |
| C47 | `Keys` | invariant over key histories; small steps of a drop; witnesses |
| C49 | `Task` | state machine invariant; witnesses |
| C52, C64 | `Inject` | ledger of requests; witness for all continuations |
| C70 | `Diagram/FlatProps`, `Witness` | from C95 for declared types; witness |
| C74 | `Diagram/Build`, `ThroughProps` | witness; proved that all but the hints is the same through the exposed names |
| C95 | `Diagram/FlatLemmas`, `FlatBuild`, `FlatProps` | the calls of the operations in closed form; each pass as a relation between targets and waiting outputs, which composes; three passes suffice, and a successful loop has seen every requirement |
| C71 | `Diagram/Ends` | measures: fuel is never the reason for a result |
| C72 | `Diagram/BuildProps`, `FlatProps` | proved for all diagrams that the claim fails inside of sections and scopes; from C95 that it holds at the root |
| C73 | `Diagram/Scopes` | invariant: scope of every connector and of every edge; witnesses |
| C75, C76 | `Diagram/Types`, `Buffers` | invariant: types of connectors and links; buffers are kept |
| C77 | `Diagram/NameProps` | origin of every target |
| C78 | `Flow` | invariant: a disposal is announced or something may still come to the terminal, joins are notified, their gates are open; witnesses |
| C79 | `Flow/Back` | no event makes anything live, with the exactness of C14; witness |
| C81, C82 | `Wire` | refinement: a list of requests (`Plan`) against the components after the calls, one invariant, induction over the calls; witness |
| C83, C84 | `Views` | refinement: each call is a call on the typed storage, induction over calls and events; the mark of a handle against the change of the contents; witnesses |
| C85 to C90 | `Refs` | induction over conversions with the last request as the abstract state; registers only grow; requirements of a layout as a list, one outcome lemma for all layouts; induction over the fetched references with distinct buffers; the two halves of a JSON message by induction over the walk; witnesses |
| C91, C92 | `Gone` | invariant: an account of all requests by node, session and instructions, on top of the account of `Delivery`; what a removed service still does; for nested dispatch an invariant of the queue under a condition on nested requests; witnesses |
| C93 | `Convert` | invariant: every converter that exists is complete and leads to the slot of its target, every connected output has the route that its types call for; the routes are then run on an arbitrary message |
| C94 | `Chain` | compiler correctness: by induction over the chain, what the builder leaves behind implements the chain in every later world that keeps it; each step of an execution keeps what was seen plus what the messages under way mean, as multisets, and lowers a cost |
| C120 | `Editor` | the nodes are the operations (induction over the forest); an edge changes one operation; the edges of an operation restore it (one lemma per kind); nodes by depth rebuild the forest; violations on concrete diagrams |
| C121 | `Editor` | an edge changes one field of one operation and nothing that an edge without conflict has set (one lemma per kind of edge); a draft stays loadable up to holes, for every edge that stays in its namespace; then C120; violations on concrete graphs |
| C122 | `Editor` | `Sound` is an invariant with one lemma per edit; the passes that look for what is inside removed nodes end with a closed set, because each adds a node or is the last; exporting an edge fails only at a few places, which soundness rules out; then C121 |
| C123 | `Values` | the messages of a session carry values; `Sound` (every message is computed by the graph, defined as an inductive relation without order) is an invariant; each event is an event of `Flow`, so C79 applies; `Told` (what was given is waiting, running or sent on; a join that can fire is told) is an invariant, from which every computed message can be reached by induction on how the graph computes it |
| C124 | `Values/Ends` | the work at each level of the workflow, from the entry down, decreases lexicographically with every event that changes something; a session that no event changes is over; then C123 and, through the refinement, C78 |
| C125 | `Poll` | induction over the rounds of each loop for the bound, the order and the progress; induction over the sequence of events; futures are an arbitrary function |
| C126 | `Editor/Template` | the lemmas of C120 on the operations together with stand-ins for the outputs; induction over inputs and buffers, whose edges restore them |
| C127 | `Editor/Template` | as many different names as there are numbers tried do not fit into the list; adding an entry commutes with the loop over the edges |
| C128 | `Editor/Edit` | induction over the operations, each of which is added, then over the edges that loading makes: no edge clashes with an earlier one, so it can be drawn; then C120 |
| C129 | `Editor/Edit` (`Field`, `Wire.field`) | case analysis over the fields and the kinds of edges, on every sound board; the negative results by witnesses that are made by edits, and for `unzip` for all boards |
| C130 | `Editor/Shelf` | invariant over all actions (names are unique, a template that is edited is in the list); induction over the loop that rebuilds the list; what is drawn is abstract (`Kit`) |
| C131 | `Editor/Layout` | dagre is an arbitrary function; minimum and maximum by induction over lists; every node gets one position; that scopes keep their start and end is an invariant of the edits that do not remove them; the negative results for all boards |
| C132 | `Editor/Move` | what a move does to every node from the list of changes, each node getting at most one; then induction over the nesting for the place on the screen; the box from the bounds of C131; witnesses for where it is false |
| C133 | `Again` | refinement to the bare system by induction over the requests; the invariant is that the storage of a service that is there is full between requests; the negative result for all runs |
| C118 | `Server` | invariant over all events that ties handlers, channel and workflows together; the violations for all continuations |
| C119 | `Server` | invariant that names the four reasons why a workflow is in the world; the violations for all continuations |
| C117 | `Many` | simulation: each event is one of a single session, does to its part what the event of `Flow` does and leaves the parts of the others alone; queues only grow at the end, so the other sessions can be run past |
| C80 | `Flow`: `emitCancel` | decision function; proved for all workflows that the claim fails |
| C100 | `Sched/Ahead` | invariant: what was in the channel is in front until the flush leaves its channel loop; counting of executions that were not deferred; witnesses |
| C101 | `Trace` | invariant over histories of sessions: parents of sessions form a forest whose depth is bounded by the number of entities |
| C102, C103 | `Trace` | per call-out: projection to the program without tracing, events against the inputs taken; induction over runs; witness |
| C104 | `Residue` | invariant: which kind of operation keeps what; exact account of what is left after cleaning and clearing, stable under events of other sessions; what is never removed as a prefix property of all continuations |
| C105 | `Residue` | conservation law: listed and pending disposals are a permutation of those emitted, by induction over histories; witness |
| C106 | `Diagram` | contrapositive of each step: a round that reports no progress changes nothing |
| C107, C108 | `Zenoh` | invariant over all events that relates the log of publications and the answers to the messages that arrived |
| C109 | `Zenoh` | case analysis of the configuration against the settings of the zenoh object; witnesses for the settings that are lost |
| C110 | `Zenoh` | invariant over builds; witnesses with two registries and two worlds |
| C111 | `Zenoh` | counting invariant: live runs and pending commands of a session are the content of its buffer; closed form of the loop; non-termination of the loop on a closed channel |
| C112 | `Zenoh` | invariant over events; closed form of the loop |
| C113 | `Grpc` | invariant over events and turns of a poll; a rank bounds the turns, so that a poll ends in a state that waits for something |
| C114 | `Scope` | the parts of the state that concern the session or the request are a view that all other events leave unchanged; on it an invariant by phases (operations, finished, cleanup workflows, over) |
| C115, C116 | `File` | reading and writing as total functions on JSON values; induction on the depth, with a predicate on operations that reading establishes and writing needs |
| C96 to C99 | `Register` | every registration is a list of elementary ones; what each asks for against what it adds; an invariant about results that will be registered again; witnesses |

No property was found inexpressible. Where the status in the manifest is
`partial`, the full statement is in `properties.jsonl`, the note in the manifest
says which part is proved, and the code itself refutes the rest unless the note
says otherwise.

## Findings: where the code and the property disagree

Each is proved in Lean by a theorem of the property whose name ends in
`_violated`. Paths are relative to `/repo/src`.

| property | what happens | where |
|----|----|----|
| C03 (C02) | `KeepFirst(0)`: `push_as_oldest` stores a value beyond the capacity | buffer/buffer_storage.rs:112-118 |
| C05 | `drain(range)` takes the mirrored indices: `drain(0..1)` yields the newest value | buffer/buffer_storage.rs:213-224 |
| C08 | inputs that wait at a buffer when their session is cleaned up enter it newest first | input.rs:352-363 |
| C10 | a flush limit of 0 stalls all work | flush.rs |
| C11 | a flush receives one item more from a channel than its limit | flush.rs:196-209 |
| C12 | notices of dropped promises are received and thrown away; the series keeps running | flush.rs:273-281 |
| C13 (C40) | connections from named streams are not followed downstream | stream/stream_target_map.rs, operation.rs |
| C14 | an operation examined while on a cycle gets a provisional "unreachable" that is kept; the answer depends on the order of connections | operation.rs (`check_reachability`) |
| C14 | a gate decided at run time looks for the wrong type of input, so the search fails | operation/operate_gate.rs:118-120 |
| C18 | opening or closing a gate by key does nothing in a session in which no gate operation ran | buffer/buffer_gate.rs |
| C21 | a pre-empting request unblocks the lane of a task that has already ended a second time | service/async_srv.rs:176-195, service/continuous.rs:784-795 |
| C23 | a workflow is stopped through its parent session, with all its other runs for that session | service/workflow.rs:213-218, operation/scope.rs:988-998 |
| C25 | a callback queued from inside the callback is served under its lock: a deeper request deadlocks | operation/operate_callback.rs:99-107 |
| C26 | responses of a continuous service are delivered later, by position: wrong order removed, double responses, panic | service/continuous.rs |
| C27 | `to_cleanup` after termination makes an uninterruptible scope give a response and a cancellation | operation/scope.rs:184-196, 218-224 |
| C27 | two cleanups with the same id overwrite each other: a request has no outcome | operation/cleanup.rs:141-147, operation/scope.rs:974-1015 |
| C28 | a second clean request for the same session lets a response pass before an operation answered | operation/scope.rs |
| C29 | the cleanup of the parent is answered at once and the session is despawned with the parent | operation/scope.rs |
| C32 | `poll` checks and stores its waker in two critical sections: a result in between wakes nobody | promise.rs |
| C33 | `interrupt` notifies without the lock of the promise: a waiter can miss it | promise.rs |
| C36 | after a failed split connections that get nothing go unreported | operation/operate_split.rs |
| C38 | a fork-clone that nobody connected to panics | operation/fork_clone.rs |
| C40 | an unreachable end of a span is trimmed alone instead of refused; operations that only lead back are trimmed; an empty span trims nothing | operation/operate_trim.rs, trim.rs |
| C41 | a trim with nothing to trim, that trims itself, or that trims an unused output, never passes its message on | operation/operate_trim.rs |
| C43 | the entity that pushes stream items is despawned after the first; storing a response after `collect_streams` replaces the stream map | series/push.rs, series/*.rs |
| C44 | `HashMap::extend` with the deferred connections replaces redirected ones: an output is dropped and the build succeeds | diagram/workflow_builder.rs:880-889 |
| C46 | templates used only inside a scope are not validated | diagram.rs:705-714 |
| C47 | with several buffers a session counts as in use for ever; a notice received inside `Drop::drop` finds the session still in use | buffer/buffer_access_lifecycle.rs, buffer/buffer_key_builder.rs |
| C49 | a cleanup during a cancellation is never reported; a second cleanup is reported too early | operation/operate_task.rs |
| C50 | an unavailable service requested inside a dispatch disposes of the requests of the outermost service | service/internal.rs:236 |
| C53 | a gate that opens, or one key access, wakes a join once although several sets are complete | operation/operate_gate.rs, operation/join.rs |
| C54 | joining a buffer with itself can take values, fail and send nothing | operation/join.rs, buffer/buffering.rs |
| C55 | `wait_mut` leaves the state pending when the result arrived before | promise.rs |
| C58 | queues are cleaned by session only, so another node of the session loses its requests | service/delivery.rs:192-194, service/continuous.rs:528 |
| C59 | the cleanup of the active request of a continuous service drops its blocker: the queue is blocked for ever | service/continuous.rs:519-530 |
| C61 | a dynamically named stream is registered under one type and looked up under another | stream/dynamically_named_stream.rs |
| C62 | the check of a cast between stream packs goes the wrong way | service.rs, stream/stream_availability.rs |
| C63 | scope streams and statically named workflow streams look at an input storage of the wrong type | operation/scope.rs:1985-2210 |
| C64 | a disposed injected request leaves its entry: the injector counts as reachable | operation/injection.rs |
| C65 | a broken step of a series tells its promise nothing | cancel.rs, operation.rs |
| C67 | the terminal that pushes a response is not despawned (inverted condition) | series/push.rs |
| C68 | a message held by a trim is not counted in reachability | operation/operate_trim.rs |
| C70 | whether a diagram builds depends on the order of a hash map: a type is taken from the first connection | diagram/workflow_builder.rs:116-141 |
| C72 | `cancel` has no target inside sections and scopes; the error target of a transform is put into its namespace twice | diagram/workflow_builder.rs:992-1035, diagram/transform_schema.rs:124-136 |
| C73 | converters for the response or a stream of a scope are created outside of it, and their errors leave it; `on_implicit_error` of a scope is never read | diagram/scope_schema.rs, diagram/serialization.rs |
| C77 | an output of a section that nothing uses can be connected to an operation that does not exist | diagram/workflow_builder.rs:832-839, 1236-1275 |
| C78 | joins that share a buffer: the one that comes too late is never disposed of, the workflow hangs | operation/join.rs:60-83 |
| C78 | a join that clones counts as reachable for ever because its buffer keeps the value | operation/join.rs:92-115 |
| C78 | a buffer of capacity 0 drops its value without a disposal | operation/operate_buffer.rs:66-95 |
| C78 | an inner workflow with streams that ends without an item announces nothing (a task does) | operation/scope.rs:1884-1893 |
| C78 | an access or listen of several buffers counts as in use for ever once it has run, because the keys it keeps share one counter | buffer/buffer_key_builder.rs:33-49 |
| C78 | a key that another thread drops: the scope can look for its terminal before the counter goes down, and is not told again | buffer/buffer_access_lifecycle.rs:68-90 |
| C78 | two values put into the buffer of a join through one use of a key, or while its gate is closed: the join is told once, the other value stays and lets the join count as reachable for ever | buffer.rs:807-820; operation/operate_buffer.rs:134-168 |
| C79 | a join of a buffer and of what a listener of this buffer leads to: the workflow is cancelled at once | operation.rs:413-446; operation/operate_buffer.rs:102-125 |
| C79 | a closed buffer that has its value already: cancelled although its gate would be opened and its listener woken | operation/operate_buffer.rs:102-125 |
| C79 | a closed gate on a buffer of a join: cancelled although the value comes and the other buffer wakes the join | operation/operate_buffer.rs:66-125 |
| C79 | a loop that feeds both buffers of a join: the workflow is cancelled at once | operation.rs:413-446 |
| C81 | a stream pack with two streams of one type or name: the second output is handed out and can be connected, but nothing is sent to it, and what it was connected to counts on it | stream/stream_target_map.rs:40-95 |
| C83 | `push_as_oldest` and `push_json_as_oldest` of a JSON handle push the message as the newest | buffer/json_buffer.rs:727-736 |
| C84 | `push_any` and `push_any_as_oldest` wake no listener | buffer/any_buffer.rs:518-523, 554-559 |
| C84 | `buffer_mut`, `buffer_gate_mut`, `any_buffer_mut` and `json_buffer_mut` of `World` never apply their `SystemState`: Bevy drops the notification, so no listener and no join wakes up | buffer.rs:556-584, buffer/any_buffer.rs:607-617, buffer/json_buffer.rs:540-550 |
| C85 | a `JsonBuffer` with `join_by_cloning` clones the newest message, all other references the oldest | buffer/json_buffer.rs:960-981 |
| C85 | a join that pulls through a `JsonBuffer` loses a message that cannot be serialised | buffer/json_buffer.rs:960-981 |
| C85 | `JsonBuffer::join_by_cloning` does not check that the type can be cloned; an `AnyBuffer` made from the result breaks every join | buffer/json_buffer.rs:82-87, buffer/any_buffer.rs:1085-1108 |
| C87 | `FetchFromBuffer::<T>::try_from(AnyBuffer)` does not compare the message type if the buffer is to be pulled | buffer/fetch_from_buffer.rs:127-146 |
| C86 | `as_result` ignores `forbidden_buffers`: maps with extra buffers are accepted | buffer/buffer_map.rs:154-164 |
| C88 | joins into `Vec` and `SmallVec` pull from buffers that were to be cloned | buffer/buffer_map.rs:735-737, 826-828 |
| C90 | `Vec` gives hints for identifiers that its conversion refuses | buffer/buffer_map.rs:272-285, 802-822 |
| C91 | requests that wait in the queue of a service, or are carried out by a continuous service or a workflow, are lost without a word when it is removed | service/delivery.rs:38, workflow.rs:273-275, operation/operate_service.rs:147-181 |
| C91 | a series whose service was removed never ends: the disposal is ignored | disposal.rs:485-502 |
| C92 | `dispatch_service` disposes for the provider of the outer request instead of the one that is missing | service/internal.rs:232-238 |
| C80 | the cancellation of a nested scope is addressed to the session, which has no `OperationCancelStorage`, and is lost; the outer workflow hangs (contrary to diagram.rs:258-261) | operation/scope.rs:674-681, 1801-1806; cancel.rs:287-309, 464-502 |
| C74 | hints given through an exposed buffer do not reach the buffer inside of the section | diagram/workflow_builder.rs:143-170, 399-443 |
| C96 | `with_result` has no effect on the variants after `with_result_minimal` for the same type | diagram/fork_result_schema.rs:114-116 |
| C96 | `RegisterForkResult::on_register` would insert the entry of the `Ok` type for the result type (unreachable: an entry is always there) | diagram/fork_result_schema.rs:112 |
| C98 | JSON buffers stay disabled if serialization and deserialization are enabled by different registrations | diagram/serialization.rs:165-205, diagram/registration.rs:496-540 |
| C100 | the response of a task can be processed before its stream items: an execution of the target that was queued for something else takes the deferred input, or `channel_received_limit` (100 in `avoid_hanging`) stops the reception | operation/operate_task.rs:226-235, input.rs:185-195, flush.rs:197-207 |
| C103 | a message that fails to be serialised for a trace is lost and breaks the operation that takes it, while the documentation of `TraceToggle::Messages` says that it is just left out of the event | input.rs:286-299, diagram.rs:418-419 |
| C104 | the cleanup of splits, maps, listeners and accesses leaves the disposals of the session in the storage, gate entries of buffers and the entity that a trim spawns for its cleanup are never removed: memory grows with the number of sessions | operate_split.rs:122-125, operate_map.rs:134-137 and 263-270, listen.rs:84-88, operate_buffer_access.rs:120-124, operate_buffer.rs:128-168, operate_trim.rs:162 |
| C105 | disposals emitted for an injected request are not listed when the workflow is cancelled while the request is running, and are lost when a trim cleans the injection | injection.rs:89-99 and 137-161, scope.rs:1055-1064 |
| C109 | the heartbeat settings of a publisher are exchanged (sporadic and periodic); reliability and locality of a publisher are not used; priority, congestion control and express of a publisher are given only to the replies of its cache | register_zenoh_publisher.rs:56-73, 131-140 and 216-228 |
| C110 | two registries open two sessions in one world, and the zenoh nodes of a registry have no session in a second world | diagram/zenoh.rs:243-259 |
| C111 | when zenoh closes the channel of a subscription (its session is closed) the loop continues without waiting: it floods `out_error`, blocks its executor and cannot be cancelled | register_zenoh_subscription.rs:202-208 |
| C113 | the timeout of a gRPC call does not cover making the connection and the first wait for the client, and there is no canceller before the second | grpc.rs:141, 199, 321 and 335-336 |
| C114 | an outer scope that cleans up waits for ever when an inner scope has two sessions for it whose operations answer later, or one that has terminated and is still cleaning up; it does not wait while cleanup workflows of a terminated inner session run, nor after a second request (for example a trim before) | scope.rs:392-447, 1108-1113, 1254-1303 and 1717-1722 |
| C115 | a target in a namespace called `builtin` is read back as a builtin target; scopes nested 63 deep can be written as text but not read, and a file at the limit that leaves settings out cannot be read again after it is written | diagram.rs:95-154 and 584-593 (recursion limit of serde_json) |
| C116 | a misspelt optional key (`stream_outs`, `on_eror`) is ignored and the default is used | diagram.rs:287-305, 363-402: no `deny_unknown_fields` |
| C118 | `response_timeout` is stored and never read: a request whose workflow never ends is never answered | diagram-editor/server/api/executor.rs:404 |
| C118 | the diagram is built on the thread of the app, so a node builder that panics takes the server down: every other request in the channel and every later one gets 500 | diagram-editor/server/api/executor.rs:308, basic_executor.rs:98-106 |
| C118 | the debug endpoint awaits a pair of a promise and an entity; by reading, the `debug` feature does not compile | diagram-editor/server/api/executor.rs:219 |
| C119 | the workflow is handed over for removal by the handler after the promise; axum drops the handler when the client disconnects, so the workflow stays for ever | diagram-editor/server/api/executor.rs:98-101 |
| C119 | the workflow is spawned first and the error is found while it is built; on an error nothing is despawned, so each refused diagram leaves entities behind | diagram.rs:518-532 |
| C120 | `exportDiagram` writes neither `default_trace` nor `on_implicit_error`; the run button uses it too | diagram-editor/frontend/utils/export-diagram.ts:457-464 |
| C120 | a target `{section: input}` is loaded as a default edge, so the input is lost; as the start of the diagram it is lost altogether; as a buffer it makes exporting throw | diagram-editor/frontend/node-manager.ts:103-110, utils/load-diagram.ts:107-114, utils/export-diagram.ts:122 |
| C120 | `cancel` is not drawn and is exported as `dispose` | diagram-editor/frontend/node-manager.ts:93-96 |
| C120 | `dispose` in `unzip` leaves a hole (`null`) or shortens the list; at the end of `split.sequential` it is dropped; `fork_clone` drops repeated targets | diagram-editor/frontend/utils/export-diagram.ts:227-237 |
| C120 | `key in node.data.op.clone` asks for an index of the array, not for an element: keyed clones are lost and `clone: [1]` becomes `[0]` | diagram-editor/frontend/utils/operation.ts:74 |
| C120 | the filter of stream edges keeps only those of `node` operations, so the streams of scopes are lost; without the filter they would overwrite `next` | diagram-editor/frontend/utils/export-diagram.ts:290-299, 421-431 |
| C121 | two edges for the same field are accepted where any number of edges may start (`unzip`, `split`, `section`, and buffers of one operation); all new ones get the same index or key, and the last one wins without a message | diagram-editor/frontend/utils/connection.ts:162-170, forms/edit-edge-form.tsx:48-70 |
| C121 | an edge can be drawn from a scope to an operation inside another one; it is exported as a bare name, which is then looked up next to the source | diagram-editor/frontend/node-manager.ts:113 (TODO), utils/connection.ts:206-228 |
| C121 | streams can be drawn from scopes (`ALLOWED_OUTPUT_EDGES`) but are filtered out when exporting | diagram-editor/frontend/utils/connection.ts:33, utils/export-diagram.ts:417-434 |
| C122 | renaming a scope leaves the namespaces of what is inside as they were; exporting throws from then on | diagram-editor/frontend/forms/base-edit-operation-form.tsx:44-57, utils/export-diagram.ts:31-45 |
| C122 | nothing checks that a new name is free; of two operations with the same name one is silently left out of the export | diagram-editor/frontend/forms/base-edit-operation-form.tsx:44-57, utils/export-diagram.ts:473-484 |
| C122 | a buffer can be connected to a section, with an input of its own type, but exporting throws because a section does not accept a buffer | diagram-editor/frontend/utils/connection.ts:46-65, utils/export-diagram.ts:58-69 |
| C122 | buffers by index and by key can be drawn to one operation, but exporting throws; the stream handle of a node takes a single edge, so a node with two streams cannot be drawn | diagram-editor/frontend/utils/export-diagram.ts:125-139, utils/connection.ts:158-160 |
| C123 | when two joins pull from one buffer, a workflow may respond or wait for ever depending on which is executed first | src/operation/join.rs:60-83, src/buffer/fetch_from_buffer.rs:128-175 |
| C123 | when a buffer that keeps one value gets two, whether a join sees the first depends on the order of execution, and the workflow may respond or be cancelled | src/operation/operate_buffer.rs:66-95, src/buffer/buffer_storage.rs |
| C125 | `single_threaded_poll_limit` is documented as a limit on how many futures get polled; it is applied twice and checked after polling, so that up to twice as many are polled, and two with the limit 0 | src/async_execution/single_threaded_execution.rs:66-96, src/flush.rs:59-66 |
| C126 | an edge from a section buffer can only be drawn to a join, a listener or a buffer access, and never to a buffer; once drawn the template cannot be saved (an error is thrown) | diagram-editor/frontend/utils/connection.ts:37, utils/export-diagram.ts:116-119 |
| C126 | a template that exposes an input of an inner section is saved with a connection to the section itself | diagram-editor/frontend/utils/operation.ts:355-363 |
| C126 | a template with an operation that leads to `terminate` cannot be opened | diagram-editor/frontend/node-manager.ts:98-99, utils/load-diagram.ts:134-181 |
| C128 | an edge cannot be drawn from the streams of a node that has one already, so a node with two streams can be opened and exported but not be drawn | diagram-editor/frontend/utils/connection.ts:154-162 |
| C128, C129 | the form of an edge from an `unzip` writes the index to `edge.data.seq`, but the export reads `edge.data.output.seq`: the index cannot be changed, and of an `unzip` that is drawn only the first output is ever connected | diagram-editor/frontend/forms/unzip-edge-form.tsx:16-25 |
| C129 | entering another key or index of a buffer, or choosing between them, drops `fetchType`: a join that cloned the buffer takes it from then on, without a message | diagram-editor/frontend/forms/buffer-edge-form.tsx:81-128 |
| C129 | choosing another type for an edge to a section drops the input of the section that it led to | diagram-editor/frontend/forms/edit-edge-form.tsx:149-160 |
| C130 | renaming a template to a name that another one has loses one of the two without a message: the renamed one if it is first in the list, else the other | diagram-editor/frontend/edit-templates-dialog.tsx:57-70 |
| C130 | when a template is renamed the sections in the diagram keep the old name, so they refer to no template | diagram-editor/frontend/edit-templates-dialog.tsx:57-70 |
| C131 | with a scope in a scope the automatic layout reads the position of the inner one, which dagre was never given, and throws a `TypeError`. Loading a file lays it out, so a file with nested scopes cannot be opened, and neither can such a template | diagram-editor/frontend/utils/auto-layout.ts:111-116, diagram-editor/frontend/diagram-editor.tsx:502-518 |
| C131 | the start and the end of a scope can be selected and deleted, unlike those of the diagram; with an edge to a scope without a start the layout throws an error | diagram-editor/frontend/nodes/create-node.ts:125-150, diagram-editor/frontend/utils/auto-layout.ts:84-92 |
| C131 | for an edge between two scopes dagre is told of an edge from the scope itself, which is not among its nodes, so the two scopes are not put in order | diagram-editor/frontend/utils/auto-layout.ts:86-94 |
| C132 | when a node is moved so far to the left or up that its scope has to move, the others are shifted against it but the moved node is not: it is off by as much as the scope moved and can be outside of the scope until it is moved again | diagram-editor/frontend/diagram-editor.tsx:243-318 |
| C132 | the box is left as it is while it is off by no more than the margin in place and in size, which together can be twice the margin, so that nodes can stick out to the right or below | diagram-editor/frontend/diagram-editor.tsx:266-277 |
| C132 | the button for the automatic layout sends its changes through `handleNodeChanges`, which computes how scopes have to follow each of them from the old positions of the others and applies that last: nodes in scopes go back to their old positions, two of them can end up in the same place, and the scope is not moved. Loading a file applies the layout directly and is not affected | diagram-editor/frontend/auto-layout-button.tsx:24-27, diagram-editor/frontend/diagram-editor.tsx:229-320 and 361-363 |
| C133 | `serve` of a blocking service returns early if the streams cannot be processed, which is before the system is put back. They cannot if a clone of a stream buffer outlives the run of the system, for example in a non-send resource. The next request to the service then panics with "Service is missing while attempting to serve". Maps and callbacks put their function back first | service/blocking.rs:146-160, operation/operate_map.rs:108 |
| C133 | `serve` of a blocking service takes the request before it looks for the system. If only the component with the system was removed, the request is not among the inputs that are then disposed of, so that it is neither answered nor disposed of | service/blocking.rs:91-125, operation/operate_service.rs:194-206 |

Smaller observations, not stated as properties:

* A detached part of a series whose downstream was dropped stays when the series
  is cancelled. `session_id()` of a series differs from the session its messages
  carry when the chain has two or more steps. Items for a dead push target of a
  stream vanish without a report.
* The output slot of a section and an operation inside with the same name share a
  name; the builder reports duplicate inputs.
* A template that is recursive through a scope is unfolded until the limit of
  rounds, and the number of operations can double each round.
* `clone_for_join` clones the oldest value while its comment says the newest.
* Streams of a node that `stream_out` does not mention are dropped without a
  report, and so are the outputs of a section that `connect` does not mention
  (this is documented).
