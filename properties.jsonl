{"id": "C01", "title": "Buffer retention keeps exactly the promised window", "statement": "After any sequence of pushes into one session of a buffer, the values readable through a key for that session are, in push order, exactly the last n values (KeepLast(n)), the first n values (KeepFirst(n)) or all values (KeepAll) that were pushed.", "quantifier": "every retention policy (any n including 0), every finite sequence of pushed values, every pre-existing content of other sessions", "why_tests_cant": "A test fixes n and one short sequence; the claim is about every n, every length and every interleaving with other sessions.", "anchors": ["src/buffer/buffer_storage.rs: BufferStorage::push, BufferStorage::force_push, BufferStorage::impl_push", "src/buffer.rs: RetentionPolicy"]}
{"id": "C02", "title": "A buffer behaves as a bounded double-ended queue", "statement": "Every sequence of buffer operations (push, push_as_oldest, pull, pull_newest, oldest, newest, get(i), count, iterate, consume, clear) returns the same results and leaves the same contents as an abstract oldest-first list per session on which push appends, pull takes the head, pull_newest takes the last, get(i) counts from the oldest, and the retention policy truncates.", "quantifier": "every retention policy, every finite sequence of operations over every set of sessions", "why_tests_cant": "Observable equivalence to a simple list must hold for unbounded operation sequences; tests sample a few sequences.", "anchors": ["src/buffer/buffer_storage.rs: BufferStorage", "src/buffer.rs: BufferMut, BufferView"]}
{"id": "C03", "title": "A buffer never holds more than its retention limit", "statement": "At no time does a session of a buffer with KeepLast(n) or KeepFirst(n) hold more than n values, whatever operations are used to insert values.", "quantifier": "every n (including 0), every sequence of insertions (push, push_as_oldest, workflow pushes, newest_mut_or_default) and removals", "why_tests_cant": "The limit must hold after every operation in every history, including corner capacities such as 0.", "anchors": ["src/buffer/buffer_storage.rs: impl_push, push_as_oldest, newest_mut_or_else"]}
{"id": "C04", "title": "Buffer sessions are isolated", "statement": "An operation on one session of a buffer (push, pull, drain, clear, session removal) never changes what is readable in any other session.", "quantifier": "every pair of distinct sessions, every operation, every state", "why_tests_cant": "Interference would only appear for particular combinations of sessions and operations.", "anchors": ["src/buffer/buffer_storage.rs: BufferStorage (reverse_queues map)"]}
{"id": "C05", "title": "drain(range) uses the documented index order", "statement": "Draining a range of indices from a buffer removes and yields exactly the elements that get(i) would return for the indices in that range (index 0 is the oldest), oldest first, and leaves the others in order.", "quantifier": "every content, every range", "why_tests_cant": "Ranges that happen to be symmetric or full behave the same under a wrong index orientation.", "anchors": ["src/buffer/buffer_storage.rs: drain, get", "src/buffer.rs: BufferMut::drain, BufferMut::get"]}
{"id": "C06", "title": "Buffers neither duplicate nor silently lose values", "statement": "Every value pushed is at any later time in exactly one place: still readable, handed back by a pull/drain/consume, handed back as the rejected or evicted value of a push, or removed by clear; nothing is ever present twice.", "quantifier": "every retention policy and every sequence of operations", "why_tests_cant": "Conservation is a statement about all histories.", "anchors": ["src/buffer/buffer_storage.rs: BufferStorage"]}
{"id": "C07", "title": "Inputs of an operation are consumed in arrival order", "statement": "The inputs sent to one operation are taken by it in exactly the order in which they were sent, each exactly once, no matter how sends and takes interleave or which sessions they belong to.", "quantifier": "every interleaving of sends and takes for every set of sessions", "why_tests_cant": "Ordering must hold under every interleaving.", "anchors": ["src/input.rs: InputStorage, sneak_input, give_input, try_take_input"]}
{"id": "C08", "title": "Session cleanup removes exactly that session's pending inputs", "statement": "Cleaning an operation for a session removes all of that session's pending inputs and none of any other session, keeps the order of the others, and if the operation is a buffer the removed inputs enter that session's buffer in arrival order.", "quantifier": "every queue content and session", "why_tests_cant": "The set of pending inputs at the moment of a cancellation is schedule dependent.", "anchors": ["src/input.rs: cleanup_inputs, ManageInput::transfer_to_buffer"]}
{"id": "C09", "title": "No pending input is forgotten by the scheduler", "statement": "Whenever an operation of a running workflow has pending inputs, at least as many executions of that operation are scheduled as it has pending inputs, so running the scheduler to exhaustion leaves no pending input behind.", "quantifier": "every workflow graph of input-consuming operations, every schedule of external inputs", "why_tests_cant": "A lost wake-up would appear only under particular interleavings.", "anchors": ["src/input.rs: give_input", "src/operation.rs: OperationRoster, execute_operation", "src/flush.rs: flush_execution_impl"]}
{"id": "C10", "title": "A flush loop limit loses no work", "statement": "Limiting the number of loops or polls in a flush only postpones work: every scheduled operation is executed at most once per request, operations are executed in the order in which they entered the flush, and whatever a positive limit leaves over is kept, in order, and taken up by the next flush.", "quantifier": "every roster content, every limit, every operation behaviour", "why_tests_cant": "Depends on where the limit cuts every possible run.", "anchors": ["src/flush.rs: flush_execution_impl, FlushParameters", "src/operation.rs: OperationRoster::append, DeferredRoster"]}
{"id": "C11", "title": "Channel reception limit is respected", "statement": "With channel_received_limit = n a flush takes at most n pending items from the channel in one collection and leaves the rest, in order, for later.", "quantifier": "every n, every number of pending channel items", "why_tests_cant": "Off-by-one limits are invisible unless the exact boundary is exercised.", "anchors": ["src/flush.rs: collect_from_channels, FlushParameters::channel_received_limit"]}
{"id": "C12", "title": "Dropping the promise of an unfinished series drops the series", "statement": "When the last listener of an undelivered series response is dropped, the flush tears down the target and every series step that only feeds it.", "quantifier": "every chain of series steps, every set of dropped targets within a flush", "why_tests_cant": "Depends on which drop notifications coincide in one flush.", "anchors": ["src/flush.rs: collect_from_channels, drop_target", "src/series.rs", "src/series/internal.rs: SeriesLifecycle"]}
{"id": "C13", "title": "Downstream query is graph reachability", "statement": "Asking whether an operation is downstream of another answers true exactly when a non-empty path of connections leads from one to the other, and always terminates, also on cyclic workflows.", "quantifier": "every finite connection graph and pair of distinct operations", "why_tests_cant": "The set of graphs is infinite; cycles are where depth-first searches fail.", "anchors": ["src/operation.rs: is_downstream_of, immediately_downstream_of"]}
{"id": "C14", "title": "Activity upstream is always detected", "statement": "The reachability check of an operation for a session returns true if and only if some operation from which it can be reached still holds activity for that session; it terminates on cyclic workflows and its cached intermediate answers are correct.", "quantifier": "every finite workflow graph including cycles, every distribution of activity", "why_tests_cant": "False negatives would cancel a live workflow; they only appear for particular cyclic graphs and visiting orders.", "anchors": ["src/operation.rs: check_reachability, OperationReachability::check_upstream, SingleInputStorage::is_reachable"]}
{"id": "C15", "title": "A join emits the oldest value of each buffer, in lock-step", "statement": "A join of distinct buffers fires only when every joined buffer holds at least one value of the session; each firing takes exactly the oldest value from every pulled buffer, so the k-th joined message consists of the k-th values of the buffers.", "quantifier": "every number of buffers, every interleaving of pushes of all sessions", "why_tests_cant": "Pairing must be right under each interleaving.", "anchors": ["src/operation/join.rs: Join::execute", "src/buffer/buffering.rs: Joining, Buffering::buffered_count", "src/buffer/fetch_from_buffer.rs"]}
{"id": "C16", "title": "A join never misses an opportunity", "statement": "Once the scheduler is idle no session is left with a value in every joined buffer while the join has not fired for it (gates open, unlimited retention).", "quantifier": "every interleaving of pushes and executions", "why_tests_cant": "A missed notification only shows for particular orders.", "anchors": ["src/operation/join.rs", "src/operation/operate_buffer.rs: OperateBuffer::execute"]}
{"id": "C17", "title": "A closed gate withholds notifications, not data", "statement": "While a buffer gate is closed for a session, pushes into the buffer for that session are stored but none of its listeners is woken; opening the gate wakes every listener; gates of other sessions are unaffected; repeating an action has no effect.", "quantifier": "every sequence of pushes, gate actions and sessions", "why_tests_cant": "Depends on the interleaving of gate actions and pushes.", "anchors": ["src/operation/operate_buffer.rs: OperateBuffer::execute, GateState, NotifyBufferUpdate", "src/operation/operate_gate.rs", "src/gate.rs"]}
{"id": "C18", "title": "Closing a gate through a buffer key takes effect", "statement": "After closing a gate through buffer gate access for a session, the gate reads as closed and listeners are no longer woken for that session until it is opened.", "quantifier": "every prior history of the session, including none", "why_tests_cant": "Whether the session was touched earlier is history dependent.", "anchors": ["src/buffer/buffer_gate.rs: BufferGateMut::close_gate, open_gate, BufferGateView::gate"]}
{"id": "C19", "title": "Collect emits full batches in order and loses nothing", "statement": "A collect with bounds min..max emits its inputs in arrival order in batches; every batch has between min and max elements, every batch emitted while more inputs may arrive has exactly max elements, and the concatenation of emitted batches, the deficient remainder and the pending elements is the input sequence of the session.", "quantifier": "every min, max, every input sequence of every session, every timing of upstream exhaustion", "why_tests_cant": "Batching must be right for every sequence and cut point.", "anchors": ["src/operation/collect.rs: Collect::execute, on_unreachable"]}
{"id": "C20", "title": "Collect sessions do not mix", "statement": "A batch emitted for a session contains only values sent in that session, and its emission does not change what is collected for other sessions.", "quantifier": "every interleaving of sessions", "why_tests_cant": "Requires all interleavings.", "anchors": ["src/operation/collect.rs: CollectionStorage"]}
{"id": "C21", "title": "Serial services run one request at a time", "statement": "A service with serial delivery (or one delivery label) has at most one active request at every moment.", "quantifier": "every sequence of arrivals, completions, pre-emptions and cleanups", "why_tests_cant": "Mutual exclusion is a property of all schedules.", "anchors": ["src/service/delivery.rs: Delivery, insert_new_order, pop_next_delivery, serve_next", "src/service/async_srv.rs", "src/service/continuous.rs", "src/service/workflow.rs"]}
{"id": "C22", "title": "Serial delivery without pre-emption is first come first served", "statement": "If no request pre-empts, the requests of a serial service are started in arrival order, each exactly once, and a completion immediately starts the next one if any is waiting.", "quantifier": "every interleaving of arrivals and completions", "why_tests_cant": "Ordering over all schedules.", "anchors": ["src/service/delivery.rs: pop_next_delivery, insert_serial_order"]}
{"id": "C23", "title": "Pre-emption discards exactly the unprotected requests", "statement": "A pre-empting request discards all waiting requests of its label that are not marked ensure, stops the active one only if it is not marked ensure, leaves every ensure request in order, and is itself placed in front of nothing that is protected.", "quantifier": "every queue content and instruction combination", "why_tests_cant": "Combinations of preempt/ensure flags over queues of any length.", "anchors": ["src/service/delivery.rs: insert_serial_order, DeliveryInstructions, DeliveryUpdate"]}
{"id": "C24", "title": "Every service request is accounted for", "statement": "Each request accepted by a service delivery is at every moment exactly one of: active, waiting, started earlier, discarded by pre-emption, or removed by session cleanup.", "quantifier": "every sequence of delivery events", "why_tests_cant": "Conservation over all histories.", "anchors": ["src/service/delivery.rs: Delivery"]}
{"id": "C25", "title": "A callback serves re-entrant requests in order", "statement": "Requests that arrive for a callback while it is running are queued and then served in arrival order, each exactly once, and the callback is available again afterwards.", "quantifier": "every tree of re-entrant requests", "why_tests_cant": "Re-entrancy depth and shape are unbounded.", "anchors": ["src/operation/operate_callback.rs: OperateCallback::execute, CallbackRequestQueue"]}
{"id": "C26", "title": "Responses of a continuous service go to the order they answer", "statement": "The response given to the i-th visible order of a continuous service is delivered to the requester of that order, in order, each order gets at most one response, and orders not answered stay queued in order.", "quantifier": "every queue of orders and every set of answered indices", "why_tests_cant": "Index shifting bugs depend on the answered subset.", "anchors": ["src/service/continuous.rs: ContinuousQueueView, OrderMut::respond, DeliverResponses"]}
{"id": "C27", "title": "A scope produces exactly one outcome per request", "statement": "For each request given to a scope, the parent receives either one response or one cancellation, never both and never two, whichever order terminate, cancel, cleanup and disposal events arrive in; the response is the first value that reached terminate.", "quantifier": "every sequence of scope events for every scoped session", "why_tests_cant": "Event orders are unbounded and race dependent.", "anchors": ["src/operation/scope.rs: ScopedSessionStatus, OperateScope, Terminate, FinishCleanup::finalize_scoped_session"]}
{"id": "C28", "title": "A scope finishes only after its cleanup and always then", "statement": "The outcome of a scope is passed on only when all its operations have reported cleaned and all its cleanup workflows are done, and it is passed on as soon as that is the case.", "quantifier": "every set of operations and every order of cleanup notifications", "why_tests_cant": "Orders of notifications are unbounded.", "anchors": ["src/operation/cleanup.rs: CleanupContents", "src/operation/scope.rs: FinishCleanup::check_awaiting_session, AwaitingCleanup"]}
{"id": "C29", "title": "Uninterruptible scopes ignore cancellation until done", "statement": "A scope marked uninterruptible keeps running to its own termination when its parent asks for cleanup, and the parent's cleanup waits for it.", "quantifier": "every order of cancel and terminate events", "why_tests_cant": "Schedule dependent.", "anchors": ["src/operation/scope.rs: ScopedSessionStatus::to_cleanup, OperateScope::dyn_cleanup"]}
{"id": "C30", "title": "A promise is resolved at most once and never changes", "statement": "Once a promise has become available, cancelled or disposed its state never changes except that take moves available to taken; at most one value is ever handed out.", "quantifier": "every interleaving of sender and receiver operations", "why_tests_cant": "Concurrent interleavings.", "anchors": ["src/promise.rs: Promise::take, update, peek", "src/promise/private.rs: Sender::set, PromiseTarget"]}
{"id": "C31", "title": "Waiting on a promise never misses the result", "statement": "A thread blocked in wait returns once the result has been set: there is no interleaving in which the result is set, the sender is done and the waiter stays blocked.", "quantifier": "every interleaving of the waiter's and the sender's atomic steps", "why_tests_cant": "Lost wake-ups are races.", "anchors": ["src/promise/private.rs: impl_wait, Sender::set", "src/promise.rs: wait, wait_mut"]}
{"id": "C32", "title": "Awaiting a promise never misses the result", "statement": "A task that polled a promise to pending is woken after the result has been set.", "quantifier": "every interleaving of poll and set", "why_tests_cant": "Lost wake-ups are races.", "anchors": ["src/promise.rs: Future for Promise (poll)", "src/promise/private.rs: Sender::set"]}
{"id": "C33", "title": "An interrupter always wakes the waiters", "statement": "After interrupt is called every thread waiting on a promise with that interrupter stops waiting.", "quantifier": "every interleaving of wait and interrupt", "why_tests_cant": "Lost wake-ups are races.", "anchors": ["src/promise.rs: Interrupter, interruptible_wait", "src/promise/private.rs: impl_wait"]}
{"id": "C34", "title": "Flattening a nested promise preserves the outcome", "statement": "Flattening a promise of a promise gives a promise that resolves to the inner result if both succeed, to the first failure otherwise, in every order of arrival of the two results and of the flatten call.", "quantifier": "every order of outer result, inner result and flatten", "why_tests_cant": "All orders and all outcomes must agree.", "anchors": ["src/promise/private.rs: impl_flatten", "src/promise.rs: flatten"]}
{"id": "C35", "title": "Result and option forks deliver to exactly one branch", "statement": "Each message into a result/option fork is delivered unchanged to exactly the branch of its variant, and the other branch is told about it by one disposal.", "quantifier": "every sequence of messages of all sessions", "why_tests_cant": "All sequences; and exactly-once is global.", "anchors": ["src/operation/branching.rs", "src/operation/fork_clone.rs"]}
{"id": "C36", "title": "Split routes every element to at most one connection by the documented priority", "statement": "Splitting a collection sends each element, in order, to its specific key if connected, else to its sequential position if connected, else to the remaining connection if connected, else nowhere; elements are never duplicated and each connection that got nothing is reported.", "quantifier": "every collection, every set of connections", "why_tests_cant": "Combinatorial in connections and elements.", "anchors": ["src/chain/split.rs: Splittable, MapSplitKey, ListSplitKey", "src/operation/operate_split.rs", "src/diagram/split_schema.rs"]}
{"id": "C37", "title": "Split builder never connects one key twice", "statement": "For every sequence of split builder calls a key is connected at most once and an attempt to reuse or exceed keys is refused without side effect.", "quantifier": "every sequence of output_for and sequential requests", "why_tests_cant": "Unbounded call sequences.", "anchors": ["src/chain/split.rs: SplitBuilder, SplitConnectionError"]}
{"id": "C38", "title": "Fork clone and unzip deliver one message per connection", "statement": "fork_clone sends exactly one equal copy to each connected branch; unzip sends the i-th element to the i-th output; spread sends every element in order.", "quantifier": "every number of branches, every message", "why_tests_cant": "Unbounded branch counts.", "anchors": ["src/operation/fork_clone.rs", "src/operation/fork_unzip.rs", "src/unzip.rs", "src/operation/spread.rs"]}
{"id": "C39", "title": "Stream targets are resolved by the documented priority", "statement": "A named stream item is delivered to the target registered for its name and type if there is one, else to an anonymous named-value target of its type, else to an anonymous target of its type, else nowhere; registering twice keeps the first.", "quantifier": "every registration sequence, every item", "why_tests_cant": "Registration order and types combine without bound.", "anchors": ["src/stream/stream_target_map.rs: StreamTargetMap"]}
{"id": "C40", "title": "Trim cleans exactly the requested operations", "statement": "A downstream branch trims exactly the operations that can be reached from its start without entering operations that lie between the entry of the scope and the start. A span trims exactly the operations on a way from its start to one of its ends, without those between the entry and the start and without those that only lead back to the start; a span without ends trims its start alone; a span with an end that cannot be reached is refused. Start and ends are trimmed only if they are inclusive, and the search always ends.", "quantifier": "every finite workflow graph and trim request", "why_tests_cant": "Infinite family of graphs, including cycles.", "anchors": ["src/operation/operate_trim.rs: calculate_span, calculate_downstream, calculate_nodes", "src/trim.rs: TrimBranch"]}
{"id": "C41", "title": "A trim always lets its message continue", "statement": "Each message entering a trim is sent on after the trimmed operations are clean, or the workflow is cancelled if the requested branch is not valid.", "quantifier": "every trim request and workflow graph, every order of cleanup notifications", "why_tests_cant": "Depends on the graph and notification order.", "anchors": ["src/operation/operate_trim.rs: Trim::execute, finalize_trim", "src/operation/cleanup.rs: CleanupContents"]}
{"id": "C42", "title": "Cancelling a series reaches its end", "statement": "Cancelling any step of a series resolves the promise at the end of the chain as cancelled and removes the whole chain, once.", "quantifier": "every chain length and every step", "why_tests_cant": "Unbounded chain lengths.", "anchors": ["src/series/impulse_cancel.rs", "src/series.rs", "src/cancel.rs"]}
{"id": "C43", "title": "Every stream item of a series reaches its collection", "statement": "When the streams of a series are pushed into a collection component, the collection receives every item that the stream produced, in order.", "quantifier": "every number of items", "why_tests_cant": "Only multi-item streams reveal loss.", "anchors": ["src/series/push.rs: Push", "src/series/store.rs: Store"]}
{"id": "C44", "title": "Building a diagram connects every output", "statement": "If building a diagram succeeds then every output of every operation has been connected to the operation it names (following section redirections), and none was dropped.", "quantifier": "every diagram, every iteration order of the internal maps", "why_tests_cant": "Depends on build order of operations and on hash map iteration order.", "anchors": ["src/diagram/workflow_builder.rs: create_workflow, RedirectConnection"]}
{"id": "C45", "title": "Operations in different sections or scopes never collide", "statement": "Two operations of a diagram get the same internal reference only if they have the same name, kind, and the same enclosing sections; resolving a reference through nested namespaces is associative.", "quantifier": "every nesting of namespaces", "why_tests_cant": "All names and nestings.", "anchors": ["src/diagram/operation_ref.rs: OperationRef::in_namespaces, NamedOperationRef"]}
{"id": "C46", "title": "Circular templates and redirections are rejected, acyclic ones are accepted", "statement": "Template validation returns an error exactly when following section templates from the used template meets an unknown template or a cycle, and always terminates; buffer references that loop are reported instead of looping.", "quantifier": "every set of templates, every reference graph", "why_tests_cant": "Infinite family of graphs.", "anchors": ["src/diagram.rs: check_circular_template_dependency, TemplateStack", "src/diagram/workflow_builder.rs: create_buffer_map"]}
{"id": "C47", "title": "Buffer keys keep the scope aware of pending access", "statement": "For a session, an accessor reports its buffer as still in use exactly while some key handed out for that session is alive; when the last key goes away a disposal is issued once so that waiting operations re-check.", "quantifier": "every sequence of key creation, cloning and dropping", "why_tests_cant": "Reference-count histories are unbounded.", "anchors": ["src/buffer/buffer_access_lifecycle.rs", "src/operation/operate_buffer_access.rs: get_access_keys, buffer_key_usage"]}
{"id": "C48", "title": "A buffer modified through a key wakes all other listeners once", "statement": "Dropping a mutable buffer access after a modification wakes each listener of the buffer once except the accessor that produced the key (unless closed loops are allowed); without modification it wakes none.", "quantifier": "every set of listeners, every sequence of mutable accesses", "why_tests_cant": "Combinations of listeners and accesses.", "anchors": ["src/buffer.rs: BufferMut (Drop)", "src/operation/operate_buffer.rs: NotifyBufferUpdate"]}
{"id": "C49", "title": "An async task ends in exactly one way", "statement": "An async task that is not cleaned up with its session either sends one response or is reported as disposed once, never both; its operation reports a cleanup as finished when, and only when, none of its tasks for that cleanup remains.", "quantifier": "every order of wake, completion, stop and cleanup events", "why_tests_cant": "Schedules are unbounded.", "anchors": ["src/operation/operate_task.rs: OperateTask, StopTask, cleanup_task"]}
{"id": "C50", "title": "Services requested during a service dispatch are all dispatched", "statement": "Requests triggered while a service is being dispatched are queued and dispatched before the outermost dispatch returns, each exactly once.", "quantifier": "every tree of nested dispatches", "why_tests_cant": "Nesting is unbounded.", "anchors": ["src/service/internal.rs: dispatch_service, ServiceQueue"]}
{"id": "C51", "title": "Buffer type inference is consistent", "statement": "The message type inferred for a buffer from its accessors and listeners is independent of the order of the hints, equals every exact hint, and inconsistent exact hints are reported.", "quantifier": "every set of hints and iteration order", "why_tests_cant": "Hash iteration order varies.", "anchors": ["src/diagram/workflow_builder.rs: infer_buffer_message_type_from_hints"]}
{"id": "C52", "title": "Injected work is tied to its request", "statement": "Each injected service response is forwarded exactly once to the injector's target with the session of its request, and cleanup of a session waits for all and only its injected tasks.", "quantifier": "every interleaving of injections, completions and cleanups", "why_tests_cant": "Schedules are unbounded.", "anchors": ["src/operation/injection.rs: Injection, InjectionFinish, InjectionStorage"]}
{"id": "C53", "title": "A join catches up however its values arrive", "statement": "Once the scheduler is idle and the gates of the joined buffers are open, some joined buffer of a pulling join is empty for each active session, whether the values arrived one at a time, several in one access by key, or while a gate was closed.", "quantifier": "every sequence of messages, key accesses and gate operations", "why_tests_cant": "Interleavings of gates, keys and messages.", "anchors": ["src/operation/join.rs", "src/operation/operate_gate.rs", "src/buffer/manage_buffer.rs"]}
{"id": "C54", "title": "A join that names a buffer twice loses nothing", "statement": "A join whose list of buffers names the same buffer more than once either fires with as many values of it, or takes nothing and does not fail.", "quantifier": "every list of buffers and every content", "why_tests_cant": "Tests join distinct buffers.", "anchors": ["src/buffer/buffering.rs", "src/operation/join.rs"]}
{"id": "C55", "title": "wait_mut leaves the promise resolved", "statement": "When wait_mut returns on a promise, the state held by the promise is no longer pending.", "quantifier": "every interleaving of wait_mut and the sender", "why_tests_cant": "Depends on whether the result arrived before or during the wait.", "anchors": ["src/promise.rs: wait_mut, interruptible_wait_mut", "src/promise/private.rs: impl_wait"]}
{"id": "C56", "title": "Dropping an unresolved promise notifies its sender once", "statement": "A promise that is dropped before it took its result triggers the drop hook of its sender exactly once; a promise that took its result never triggers it.", "quantifier": "every sequence of operations on a promise and its sender", "why_tests_cant": "Orders of operations are unbounded.", "anchors": ["src/promise.rs: Drop for Promise", "src/promise/private.rs: on_promise_drop"]}
{"id": "C57", "title": "Dropping a flattened promise reaches the pending source", "statement": "Dropping a flattened promise before it resolved triggers the drop hook of the sender whose result is still missing.", "quantifier": "every order of outer result, inner result, flatten and drop", "why_tests_cant": "Orders of operations are unbounded.", "anchors": ["src/promise/private.rs: impl_flatten", "src/promise.rs: Drop for Promise"]}
{"id": "C58", "title": "Cleaning up one node leaves the requests of other nodes alone", "statement": "When a node that calls a service is cleaned up for a session, the requests that other nodes made of the same service stay where they are, as do the requests of the same node for other sessions.", "quantifier": "every state of the queues and the running tasks of a service", "why_tests_cant": "Needs two nodes of one workflow that share a service, one of them being cleaned up while the request of the other waits.", "anchors": ["src/service/delivery.rs:160-194", "src/service/delivery.rs:224-228", "src/operation/operate_service.rs:91-115"]}
{"id": "C59", "title": "Removing the active request lets the next waiting request start", "statement": "When the active request of a serial queue of a service is taken away by the cleanup of its session, the queue does not stay blocked: the requests of other sessions that wait in it are started in turn.", "quantifier": "every run of a service, every kind of provider", "why_tests_cant": "Needs a cancelled workflow whose request is active in a shared serial service while requests of other workflows wait; a test sees a missing response only as a time-out.", "anchors": ["src/service/delivery.rs:29-95", "src/service/continuous.rs:519-530", "src/operation/operate_task.rs:323-359"]}
{"id": "C60", "title": "Stream items only reach outputs of their own type", "statement": "However a service's streams were cast, an item sent on a stream makes at most one message, and that message goes to an output that was declared for exactly the type of the message; no input storage ever holds a value of another type.", "quantifier": "every provider pack, every node pack, every sequence of items", "why_tests_cant": "Casts let the packs of provider and node differ in any way; the targets are found by type ids and names at run time.", "anchors": ["src/stream/stream_target_map.rs", "src/stream/named_stream.rs:228-304", "src/stream/anonymous_stream.rs:140-204"]}
{"id": "C61", "title": "Discovery finds exactly the services that offer the required streams", "statement": "A service found by discovery with required streams can feed each of them, and a service whose pack contains the required streams is found.", "quantifier": "every service pack and every filter", "why_tests_cant": "The combinations of packs and filters are unbounded, and each kind of stream registers and checks its availability separately.", "anchors": ["src/service/discovery.rs", "src/stream/stream_availability.rs", "src/stream/dynamically_named_stream.rs:205-211", "src/stream/stream_filter.rs"]}
{"id": "C62", "title": "A stream cast succeeds only to streams that the service has", "statement": "stream_cast succeeds when every stream of the target pack is present in the service and fails, naming the missing ones, when the target pack contains streams that the service does not have.", "quantifier": "every pair of packs", "why_tests_cant": "Packs are unbounded, and the direction of the check only shows when the two packs are not equal.", "anchors": ["src/service.rs:150-183", "src/stream/stream_availability.rs:71-90"]}
{"id": "C63", "title": "Items waiting at a stream exit are seen and cleaned up", "statement": "An item waiting at the stream exit of a workflow or scope keeps the exit reachable for its session, and the cleanup of a session drops the waiting items of that session and no others.", "quantifier": "every state of the exit, every kind of stream", "why_tests_cant": "Needs an item that is waiting while reachability is asked for or a cleanup happens.", "anchors": ["src/operation/scope.rs:2055-2116", "src/stream/named_stream.rs:384-405"]}
{"id": "C64", "title": "A disposed injected request does not keep the injector alive", "statement": "Once an injected service has disposed of a request (the service is gone, or the request was supplanted), the injection node no longer counts as able to produce an output for that request in reachability checks; without disposals it counts as able exactly while a request of the session waits, is with a service, or has an answer on its way.", "quantifier": "all sequences of inputs, executions, answers, disposals, cleanups and finish steps over any number of sessions and injected services", "why_tests_cant": "Reachability is only consulted when something is disposed; a test would have to drop an injected service at the right moment and then observe that a workflow does not end, for every interleaving.", "anchors": ["src/operation/injection.rs:183-193", "src/operation/injection.rs:217-253", "src/operation/operate_service.rs:182-204"]}
{"id": "C65", "title": "A broken step ends its series", "statement": "When a step of a series cannot go on because something in the world it needs is missing (its operation is broken), the promise at the end of the chain is resolved as cancelled and the entities of the series are removed.", "quantifier": "every series, every step, everything that happens afterwards", "why_tests_cant": "That a promise is never resolved cannot be seen by a test that ends; the property speaks about all continuations.", "anchors": ["src/operation.rs:677-735", "src/cancel.rs:417-433", "src/cancel.rs:464-503", "src/series/internal.rs:129-176"]}
{"id": "C66", "title": "Stream receivers get everything before the response", "statement": "A receiver taken from a series is sent every item emitted into its stream, in order and once, and all of them have been sent when the response of the series arrives at the promise; the receiver is not torn down before the series is.", "quantifier": "every number of items, every interleaving with other series, every chain", "why_tests_cant": "The response tears the series down with all entities of its streams; whether an item is still waiting then depends on the interleaving.", "anchors": ["src/series/taken.rs:55-104", "src/series.rs:112-131", "src/stream/anonymous_stream.rs:104-138", "src/input.rs:173-262"]}
{"id": "C67", "title": "A finished series leaves nothing behind", "statement": "Once the response of a series was delivered to its promise, storage, collection or event, all entities of that series are gone and no entity of another series was touched.", "quantifier": "every series shape, every reachable state", "why_tests_cant": "Leaks are not observable through the results; the shapes of series are unbounded.", "anchors": ["src/series/taken.rs:55-63", "src/series/store.rs:49-58", "src/series/push.rs:67-102", "src/series/send_event.rs:42-48"]}
{"id": "C68", "title": "A message held by a trim counts as activity", "statement": "While a trim holds a message until the trimmed operations are clean, the trim counts as able to produce an output for the session of that message in reachability checks.", "quantifier": "every trim, every sequence of messages, cleanup notices and cleanups", "why_tests_cant": "The time between taking the message and the last cleanup notice is only long with asynchronous operations, and only another disposal in that time asks for reachability.", "anchors": ["src/operation/operate_trim.rs:194-200", "src/operation/operate_trim.rs:160-178"]}
{"id": "C69", "title": "A diagram builds all of its operations, each once", "statement": "When a diagram is built successfully, the operations that were built are exactly the operations of the diagram: those of the diagram itself, and, for every use of a section template and every scope, those inside; each of them once for each place it appears at.", "quantifier": "every diagram (any nesting of sections and scopes), every registry, every order in which the maps are traversed", "why_tests_cant": "Diagrams nest without bound, and building defers and retries operations in an order that depends on hash maps.", "anchors": ["src/diagram/workflow_builder.rs:777-940", "src/diagram/section_schema.rs:178-295", "src/diagram/scope_schema.rs:75-189"]}
{"id": "C70", "title": "Whether a diagram builds does not depend on the order of its operations", "statement": "Operations of a diagram are a map without order: whether a diagram can be built is the same for every order in which the map is traversed.", "quantifier": "every diagram, every order of traversal", "why_tests_cant": "A hash map is traversed in one order per run; a test sees one of them.", "anchors": ["src/diagram/workflow_builder.rs:777-823", "src/diagram/workflow_builder.rs:834-878", "src/diagram/workflow_builder.rs:116-141"]}
{"id": "C71", "title": "Building a diagram ends", "statement": "Building a diagram always ends, with a workflow or with an error, after at most a fixed number of rounds; also for diagrams whose sections, redirections or buffers refer to each other in a circle.", "quantifier": "every diagram, every registry, every order", "why_tests_cant": "Non-termination cannot be seen by a test that ends, and diagrams are unbounded.", "anchors": ["src/diagram/workflow_builder.rs:786-923"]}
{"id": "C72", "title": "Cancellation and error targets work inside of sections and scopes", "statement": "An operation inside of a section or a scope can name the builtin target cancel, and a transform inside of a section or a scope can have a target for its errors, just like an operation of the diagram itself.", "quantifier": "every diagram, every nesting", "why_tests_cant": "A test of a nested diagram covers one nesting; the property is about the names at every depth.", "anchors": ["src/diagram.rs:250-270", "src/diagram/workflow_builder.rs:992-1035", "src/diagram/transform_schema.rs:100-140"]}
{"id": "C73", "title": "Connections do not cross scopes", "statement": "In a workflow built from a diagram, each output is connected to inputs of its own scope, also where a converter is inserted in between; only the operations of a scope itself lead in or out of it.", "quantifier": "every diagram, every nesting of scopes and sections, every registry", "why_tests_cant": "A connection across scopes does not fail when it is made; its messages go to a session that the target does not know. Tests cover a few nestings.", "anchors": ["src/diagram/workflow_builder.rs:834-878", "src/diagram/scope_schema.rs:120-260", "src/diagram/serialization.rs:233-359", "src/node/dyn_node.rs:147-168"]}
{"id": "C74", "title": "A buffer can be used through a section as it can be used directly", "statement": "If a diagram with a buffer builds, then the diagram in which the buffer is moved into a section that exposes it, and every access refers to the exposed buffer, builds too.", "quantifier": "every diagram, every registry", "why_tests_cant": "The type of the buffer is inferred from whatever refers to it; the ways to refer to it are unbounded.", "anchors": ["src/diagram/workflow_builder.rs:143-175", "src/diagram/workflow_builder.rs:383-443", "src/diagram/workflow_builder.rs:529-553", "src/diagram/section_schema.rs:150-195"]}
{"id": "C75", "title": "A built diagram is type-correct", "statement": "When a diagram builds, every operation has types for its input and outputs that its schema and the registry allow; whatever is connected to an input has the type of that input or is registered to be converted to or from JSON; the same holds for the response and the streams of the diagram and of each scope, and what a scope passes on has the type that was connected to it.", "quantifier": "every diagram, every registry, every order of traversal", "why_tests_cant": "The connections are made between type-erased entities: a mismatch shows only when a message is sent, as an input that never arrives. Tests cover a few pairs of types.", "anchors": ["src/diagram/workflow_builder.rs:1066-1145", "src/diagram/serialization.rs:233-359", "src/diagram/scope_schema.rs:182-337", "src/diagram/node_schema.rs:83-116", "src/diagram/fork_clone_schema.rs:79-112"]}
{"id": "C76", "title": "Buffer accesses, listeners and joins have the buffers they need", "statement": "When a diagram builds, every buffer access, listener and join has existing buffers, through sections too, whose message types are what its layout asks for; a join has at least one buffer, can clone from those that it is to clone from, and if it is to make a JSON message all of its buffers can be used as JSON; and a buffer operation makes a buffer of the type of its input, JSON if it is to be serialized.", "quantifier": "every diagram, every registry, every order of traversal", "why_tests_cant": "The buffers are looked up by name while other operations are still being built, and their types are inferred in an order that differs from run to run.", "anchors": ["src/diagram/buffer_schema.rs:110-146", "src/diagram/buffer_schema.rs:209-236", "src/diagram/buffer_schema.rs:293-319", "src/diagram/workflow_builder.rs:340-381", "src/diagram/join_schema.rs:103-149"]}
{"id": "C77", "title": "Every name in a built diagram resolves", "statement": "When a diagram builds, every name that it uses exists where it is used: the targets of all outputs and the start of the diagram and of scopes name an operation beside them, an output of the section they are in or an exposed slot of a section beside them; buffers name buffers; sections name templates and connect only outputs of their templates, to operations that exist; and cancel is only named outside of sections and scopes.", "quantifier": "every diagram, every registry, every order of traversal", "why_tests_cant": "A misspelled name must be found at any place of any diagram, under any nesting; tests cover a few places.", "anchors": ["src/diagram/workflow_builder.rs:805-845", "src/diagram/workflow_builder.rs:1168-1240", "src/diagram/section_schema.rs:138-218", "src/diagram/workflow_builder.rs:529-553"]}
{"id": "C78", "title": "A workflow that has nothing left to do has ended", "statement": "When no message waits for an operation, no task and no inner session runs, no key of a buffer is in use and every disposal has been looked at, the session of a workflow has terminated or has been cancelled; it is not left waiting for ever.", "quantifier": "every workflow of nodes, forks, branches, filters, spreads, splits, buffers, joins, listens, buffer accesses, static gates and scopes, every behavior of the nodes, every use of the buffer keys, every order of events", "why_tests_cant": "A hang is the absence of an event, and depends on which of the messages was dropped where, on loops, and on what was still running when the last check was made.", "anchors": ["src/operation/scope.rs:1018-1099", "src/flush.rs:282-320", "src/disposal.rs:493-544", "src/operation/operate_task.rs:246-281", "src/operation/join.rs:60-115", "src/operation/branching.rs:131-170", "src/operation/listen.rs:64-97", "src/operation/operate_buffer_access.rs:100-235", "src/operation/operate_gate.rs:166-201", "src/operation/operate_buffer.rs:66-170", "src/buffer/buffer_access_lifecycle.rs:63-90"]}
{"id": "C79", "title": "A workflow is not cancelled while it can still terminate", "statement": "When a session is cancelled because its terminal cannot be reached, at its beginning or later, no continuation of the session would have reached the terminal.", "quantifier": "every workflow of nodes, forks, branches, filters, spreads, splits, buffers, joins, listens, buffer accesses, static gates and scopes, every state of the session, every continuation", "why_tests_cant": "It speaks of all continuations that did not happen.", "anchors": ["src/operation/scope.rs:485-566", "src/operation/scope.rs:1018-1099", "src/operation.rs:470-500", "src/operation/join.rs:92-115"]}
{"id": "C80", "title": "The cancellation of an inner scope reaches the workflow around it", "statement": "When the session of a scope is cancelled, whoever asked for it is told: a request is cancelled, and a workflow around the scope sees a disposal and looks whether its terminal can still be reached.", "quantifier": "every nesting of workflows, every state of the session around the scope", "why_tests_cant": "The effect of the missing message is a workflow that waits for ever, which a test cannot tell from one that is slow.", "anchors": ["src/operation/scope.rs:1783-1900", "src/cancel.rs:270-309", "src/cancel.rs:464-503", "src/diagram.rs:255-262"]}
{"id": "C81", "title": "A workflow is wired the way its builder was asked to", "statement": "After any sequence of calls on a builder, every operation sends to exactly the operations that its outputs were connected to, in the order of its outputs, the operations that an operation searches for what may still reach it are exactly those that send to it, each once, nothing is sent to a place where there is neither an operation nor an output that the user still holds, a scope takes what comes in to where its start was connected, and no error is reported.", "quantifier": "every sequence of calls that create nodes with streams, forks, scopes with streams, buffers, listeners and sinks, chain them onto outputs, add branches to forks and connect outputs to inputs, including cycles and nested scopes", "why_tests_cant": "Any one workflow exercises one order of connections; the two directions of each connection are kept in different components which later connections rewrite.", "anchors": ["src/builder/connect.rs:55-149", "src/builder.rs:73-93", "src/builder.rs:158-164", "src/builder.rs:703-755", "src/chain.rs:100-140", "src/node.rs:168-182", "src/stream/stream_target_map.rs:40-95", "src/buffer/buffering.rs:902-924"]}
{"id": "C82", "title": "Connections do not cross scopes", "statement": "After any sequence of calls on a builder a scope holds exactly the operations that were added to it, in that order, every operation that an output leads to belongs to the scope in which that output may be used, and a connection between handles of different scopes is refused.", "quantifier": "the same sequences of calls, over any nesting of scopes", "why_tests_cant": "Operations chained onto outputs, streams that leave a scope and entries of scopes each get their scope in another way; a mistake shows only when a session is cleaned up.", "anchors": ["src/builder.rs:158-164", "src/builder.rs:703-755", "src/operation.rs:620-660", "src/operation/scope.rs:630-690", "src/builder/connect.rs:55-149"]}
{"id": "C83", "title": "Erased and JSON keys act on a buffer as the typed key does", "statement": "Whatever mixture of calls is made on a buffer through typed, type-erased and JSON handles, in any sessions and between anything the workflow itself does with the buffer, the buffer holds the messages and the callers see the results that the corresponding typed calls give: an erased message is accepted if and only if its type is that of the buffer, a JSON message if and only if it can be read as one, and what is seen is the typed message, boxed or serialised.", "quantifier": "every history of accesses and workflow events, every message type and every (possibly failing) serialisation of it", "why_tests_cant": "Each method of the erased and JSON handles is forwarded by hand to a method of the storage; one that is forwarded to the wrong method is only noticed by a test that uses that method with at least two messages in the buffer.", "anchors": ["src/buffer/any_buffer.rs:399-566", "src/buffer/any_buffer.rs:775-816", "src/buffer/json_buffer.rs:346-500", "src/buffer/json_buffer.rs:554-607", "src/buffer/json_buffer.rs:670-820", "src/buffer.rs:633-805"]}
{"id": "C84", "title": "A change made through a key wakes the listeners exactly once", "statement": "An access through a key that changes the messages of its session or the gate from closed to open, or that calls pulse, hands over exactly one notification, about its own session and naming the accessor to be skipped unless closed loops were allowed. An access that only looks hands over none and changes nothing. No access touches another session.", "quantifier": "every sequence of calls made during an access, on every kind of handle, in every state of the buffer, through a system parameter or through the world", "why_tests_cant": "A forgotten mark in one of some forty methods, or a queue of commands that is not applied, leaves a workflow waiting only if nothing else happens to wake the listener afterwards.", "anchors": ["src/buffer.rs:446-585", "src/buffer.rs:633-821", "src/buffer/any_buffer.rs:399-617", "src/buffer/json_buffer.rs:346-550", "src/buffer/buffer_gate.rs:78-191"]}
{"id": "C85", "title": "A join takes the oldest message whatever the reference to the buffer is", "statement": "However a reference to a buffer was converted (to an erased, JSON or fetching reference and back, with requests to join by cloning or by pulling in between), a join through it takes the oldest message of its session out of that buffer, or clones it if cloning was asked for last. A join that cannot take the message fails and changes nothing.", "quantifier": "every sequence of conversions, every state of the buffers, every later growth of the registers of cloneable and serialisable types, every partial serialisation", "why_tests_cant": "There are five kinds of references, each with its own code for joining, and the erased ones find the function to call in global registers that depend on what other parts of the program did before.", "anchors": ["src/buffer/buffering.rs:272-284", "src/buffer/buffering.rs:360-373", "src/buffer/fetch_from_buffer.rs:127-229", "src/buffer/any_buffer.rs:1085-1108", "src/buffer/any_buffer.rs:1224-1242", "src/buffer/json_buffer.rs:82-99", "src/buffer/json_buffer.rs:960-981", "src/buffer/json_buffer.rs:1138-1156", "src/buffer/manage_buffer.rs:33-109"]}
{"id": "C86", "title": "A layout accepts exactly the maps of buffers that fit it", "statement": "A map of buffers is accepted by a layout if and only if it has every buffer that the layout needs, of a type that can be referred to as the layout does, and no other buffer. The layout then refers to those buffers. Otherwise the error lists exactly the identifiers that are missing and those whose buffers do not fit.", "quantifier": "every map of buffers, every layout of the library and every struct with named buffers", "why_tests_cant": "The number of maps is unbounded and each layout has its own loop over the identifiers.", "anchors": ["src/buffer/buffer_map.rs:142-233", "src/buffer/buffer_map.rs:648-650", "src/buffer/buffer_map.rs:740-844", "src/buffer/json_buffer.rs:1189-1291", "macros/src/derive_buffer.rs:380-400"]}
{"id": "C87", "title": "A reference stands for the same buffer however it is converted", "statement": "Conversions between the kinds of references keep the buffer and the message type, and how a join takes the message is what was asked for last. A downcast succeeds exactly if the message type is the one of the buffer and what the kind of reference needs is registered.", "quantifier": "every sequence of conversions and registrations", "why_tests_cant": "A conversion that accepts too much is noticed only when a join is run, and then as a broken operation.", "anchors": ["src/buffer.rs:86-92", "src/buffer.rs:167-239", "src/buffer/any_buffer.rs:58-73", "src/buffer/any_buffer.rs:140-182", "src/buffer/any_buffer.rs:974-1004", "src/buffer/fetch_from_buffer.rs:75-146", "src/buffer/json_buffer.rs:62-169"]}
{"id": "C88", "title": "A join made from a map of buffers takes each message as was asked for its buffer", "statement": "If a type that is joined from a map of buffers accepts a map and every buffer that it needs has a message, then the join gives the oldest message of each under its identifier, removes it from the buffers that are to be pulled, leaves it in those that are to be cloned, and changes nothing else.", "quantifier": "every map of distinct buffers, every joined type, every state of the buffers", "why_tests_cant": "Whether the request of one buffer survives depends on the kind of reference that the joined type uses for it, which differs between structs, maps and vectors.", "anchors": ["src/buffer/buffer_map.rs:673-692", "src/buffer/buffer_map.rs:735-844", "src/buffer/buffering.rs:737-748", "src/buffer/buffering.rs:855-866", "src/buffer/json_buffer.rs:1210-1338", "macros/src/derive_buffer.rs:215-256", "macros/src/derive_buffer.rs:428-457"]}
{"id": "C89", "title": "Buffers joined into a JSON message become an array, an object or both", "statement": "When buffers are joined into one JSON message, the messages of buffers with indices make an array in which each is at its index and null fills the gaps, those of named buffers make an object, and if there are both kinds the message holds the two under array and object. The order in which the hash map is walked has no effect.", "quantifier": "every set of identifiers, in every order", "why_tests_cant": "A test sees one of the orders in which a hash map may be walked.", "anchors": ["src/buffer/json_buffer.rs:1310-1338"]}
{"id": "C90", "title": "The hints of a layout agree with what it accepts", "statement": "If a layout gives hints about the message types for the identifiers of a map, and each buffer is as its hint says, then the layout accepts the map. A layout that accepts a map also gives hints for it.", "quantifier": "every map of buffers and every layout", "why_tests_cant": "Hints and conversions are computed by different code, and the hints are used by diagrams that are built long before any buffer exists.", "anchors": ["src/buffer/buffer_map.rs:235-420", "src/buffer/buffer_map.rs:652-660", "src/buffer/buffer_map.rs:740-860", "src/buffer/json_buffer.rs:1189-1300", "macros/src/derive_buffer.rs:400-428"]}
{"id": "C91", "title": "Requests to a service that is removed do not get lost", "statement": "When a service is removed, every request that was made to it, before or after, is answered, withdrawn with its session or by a later request, or whoever made it is told that the service is unavailable. Nothing is started after the removal.", "quantifier": "every service (blocking, asynchronous, continuous, workflow), every number of nodes that use it, every history of requests, answers, pre-emptions, cleanups and flushes around the removal", "why_tests_cant": "What is lost depends on where each request is at the moment of the removal; a lost request looks like a slow one.", "anchors": ["src/service/internal.rs:90-115", "src/service/internal.rs:201-243", "src/flush.rs:214-239", "src/operation/operate_service.rs:147-215", "src/disposal.rs:483-533", "src/service/delivery.rs:29-54", "src/workflow.rs:264-276"]}
{"id": "C92", "title": "Only requests to a removed service are disposed of as undeliverable", "statement": "A request is disposed of because its service is unavailable only if that service was removed; and a node whose service was removed has no requests left after it was executed.", "quantifier": "every history of requests and removals, including services that flush the execution while they run", "why_tests_cant": "Needs requests that are dispatched inside of others, in combination with a removal.", "anchors": ["src/service/internal.rs:186-243", "src/operation/operate_service.rs:147-215"]}
{"id": "C93", "title": "An implicitly converted connection delivers every message once", "statement": "A diagram connection between two types is accepted exactly if the types are the same, or the target takes JSON and the source can be serialised, or the source is JSON and the target can be deserialised; a connection to cancel is accepted for every registered type. A message on an accepted connection then reaches its target exactly once, as it is or converted; if its conversion fails the reason goes to the implicit error target exactly once. A message to cancel cancels with its text if it has one, else with its JSON form, else without a text. Which other outputs are connected to the same target, and in what order, makes no difference.", "quantifier": "every registry, every set of targets, every sequence of connections from distinct outputs, every message and every behaviour of the user's serialisation", "why_tests_cant": "Converters are made on demand and shared by all outputs of one type, in an order that depends on hash maps; a test sees one order of a few connections.", "anchors": ["src/diagram/serialization.rs:207-420", "src/diagram/workflow_builder.rs:1039-1213", "src/diagram/registration.rs:924-988", "src/node/dyn_node.rs:147-165", "src/operation/operate_cancel.rs:27-130"]}
{"id": "C94", "title": "A chain does what its combinators say", "statement": "A message sent into a chain has exactly the effects that its combinators say, each as often as they say: it is mapped, cloned into every branch, spread into its elements, taken apart, sent down the branch for its variant, filtered with a disposal or a cancellation that names the reason, or arrives at the input slot that the chain ends at. No more than that is ever observed on the way. The messages run out after a bounded number of steps, whatever order they are dealt with in.", "quantifier": "every nesting of the combinators, every message, every order in which messages are dealt with, every behaviour of the user's functions", "why_tests_cant": "Combinators call each other and nest without limit, and the order in which branches run is up to the flush and to async tasks; tests try a few chains of two or three combinators.", "anchors": ["src/chain.rs:83-470", "src/chain.rs:697-1018", "src/chain/fork_clone_builder.rs:27-80", "src/chain/unzip.rs:39-130", "src/operation/filter.rs:28-315", "src/operation/branching.rs:120-201", "src/operation/spread.rs:59-85", "src/operation/fork_clone.rs:60-94"]}
{"id": "C95", "title": "A diagram that declares its types builds exactly when they fit", "statement": "A diagram made of nodes, transforms and JSON buffers can be built if and only if every message that it sends suits the place that it is sent to: the place is dispose or cancel, or it exists and the types are equal or can be converted through JSON; and, if any conversion can fail, the errors of conversions suit the place for implicit errors.", "quantifier": "every such diagram of any size, every registry, every order in which operations and outputs are visited", "why_tests_cant": "Success depends on loops over hash maps that add further outputs while they run; a test sees single diagrams, and cannot see that no well-typed diagram is refused.", "anchors": ["src/diagram/workflow_builder.rs:728-940", "src/diagram/workflow_builder.rs:992-1225", "src/diagram/serialization.rs:233-359", "src/diagram/node_schema.rs:83-116", "src/diagram/transform_schema.rs:105-147", "src/diagram/buffer_schema.rs:110-146"]}
{"id": "C96", "title": "The registry supports what was asked for, in any order", "statement": "After any registrations of messages, nodes and sections, an operation (serializing, deserializing, cloning, unzipping, forking results, splitting, joining, accessing, listening, printing) is supported for a type of message exactly when one of the registrations asks for it: by its common operations, by a method called on the builder that it returns, or for the elements that a message is taken apart into. The order of registrations does not matter, and none takes anything away.", "quantifier": "every sequence of registrations, with every combination of opt-outs and of methods, every relation between the types", "why_tests_cant": "Registrations of different libraries meet in one table of which each entry is written by several methods, some of which keep what is there and some of which overwrite it; tests register a few types in one order.", "anchors": ["src/diagram/registration.rs:145-642", "src/diagram/registration.rs:924-1332", "src/diagram/unzip_schema.rs:172-180", "src/diagram/fork_result_schema.rs:108-132", "src/diagram/split_schema.rs:315-328", "src/diagram/serialization.rs:63-163"]}
{"id": "C97", "title": "What the registry makes for a type is made for that type", "statement": "Operations, buffers, triggers and scopes that are made for messages of a type through the registry are made for that type. Buffers, triggers and scopes can be made for exactly the types that a registration names, as a message, a request, a response, a vector of them or an element of them. A schema is there exactly for types that can be serialized or deserialized.", "quantifier": "every sequence of registrations, every type", "why_tests_cant": "The entries are type-erased: an entry created for the wrong type compiles, and shows only when a diagram uses that type in that way after registrations in that order.", "anchors": ["src/diagram/registration.rs:729-781", "src/diagram/registration.rs:875-893", "src/diagram/registration.rs:1112-1189", "src/diagram/fork_result_schema.rs:108-132"]}
{"id": "C98", "title": "Buffers can be used as JSON or cloned for the registered types", "statement": "Buffers of a type can be used as JSON buffers exactly if serialization and deserialization have been enabled for it, and can be joined by cloning exactly if cloning has been enabled.", "quantifier": "every sequence of registrations, every type", "why_tests_cant": "The registrations for buffers are side effects of others, kept in registers of the process that outlive a test.", "anchors": ["src/diagram/registration.rs:272-293", "src/diagram/serialization.rs:165-205", "src/diagram/fork_clone_schema.rs:116-145", "src/buffer.rs:185-205", "src/buffer/json_buffer.rs:114-121"]}
{"id": "C99", "title": "A name stands for the node that was last registered under it", "statement": "The builder that is found under a name is the last one that was registered under it, whatever else has been registered since; and buffers, triggers and scopes can be made for its request and response.", "quantifier": "every sequence of registrations, every name", "why_tests_cant": "Tests register each name once.", "anchors": ["src/diagram/registration.rs:201-257", "src/diagram/registration.rs:1570-1578"]}
{"id": "C100", "title": "What a task has sent takes effect before its response", "statement": "Whatever an async task has sent through its channels (stream items, commands) before it finished takes effect, in the order in which it was sent, before anything is done with its response.", "quantifier": "every application, every schedule of the flush and of other threads, every point at which the task is polled", "why_tests_cant": "Whether items and response meet in one flush, and what else is queued for the target then, depends on timing between threads.", "anchors": ["src/operation/operate_task.rs:226-235", "src/flush.rs:183-212", "src/stream/stream_channel.rs:33-55", "src/input.rs:185-195"]}
{"id": "C101", "title": "The session stack of a trace event", "statement": "Collecting the session stack of an input always ends. The stack begins with a session that has no parent, goes from parent to child and ends with the session of the input; a session made inside of another one has the stack of the other one with itself on top.", "quantifier": "every history of sessions being made, nested, appended to by series, detached and despawned", "why_tests_cant": "The loop in the code has no bound: only an invariant over all ways of changing parents shows that it ends.", "anchors": ["src/input.rs:302-310", "src/trace.rs:99-120", "src/operation/scope.rs:376-379", "src/service/workflow.rs:120-124", "src/series.rs:148-161"]}
{"id": "C102", "title": "One trace event for each input that an operation takes", "statement": "If the trace of an operation is on, it emits exactly one event for each input it takes, in the order in which the inputs are taken. The event names the operation and its information, has the session stack of the input and, if messages are asked for and can be serialised, the message. If the trace is off it emits none.", "quantifier": "every application, every schedule of the flush and of other threads, every setting of traces", "why_tests_cant": "Tests look at one workflow and one toggle; the claim is about every order of taking inputs.", "anchors": ["src/input.rs:268-328", "src/diagram.rs:393-431", "src/trace.rs:30-82"]}
{"id": "C103", "title": "Tracing does not change what a workflow does", "statement": "A run of the engine with traces switched on, off, or changed on the way is the same as the run without tracing.", "quantifier": "every application, every schedule of the flush and of other threads, every setting of traces", "why_tests_cant": "Transparency compares two runs of every application; tests run with one setting.", "anchors": ["src/input.rs:268-328", "src/diagram.rs:404-421"]}
{"id": "C104", "title": "Ending a session leaves nothing of it behind", "statement": "When the scope has cleaned up a session of a workflow and cleared its buffers, no operation of the workflow has anything of the session left: no message, key, collection, held message, injected request, disposal or gate setting; and nothing of any other session is changed.", "quantifier": "every workflow, every history before the session ends, whatever other sessions do meanwhile and afterwards", "why_tests_cant": "What stays behind is invisible to tests and only adds up over many sessions; the claim is about every store of every operation.", "anchors": ["src/operation/cleanup.rs:79-120", "src/disposal.rs:533-537", "src/operation/operate_split.rs:122-125", "src/operation/operate_map.rs:134-137", "src/operation/operate_buffer.rs:128-168", "src/operation/operate_trim.rs:162", "src/operation/scope.rs:1923-1936"]}
{"id": "C105", "title": "The cancellation of an unreachable workflow lists the disposals of its session", "statement": "When a workflow is cancelled because its end cannot be reached, the cancellation lists exactly the disposals that were emitted in the session, each as often as it was emitted and none of another session; trims take nothing from the list.", "quantifier": "every workflow, every interleaving of sessions, trims and injected requests before the cancellation", "why_tests_cant": "Tests look at one disposal of one session; the claim compares the list with the whole history.", "anchors": ["src/operation/scope.rs:1055-1064", "src/disposal.rs:494-563", "src/operation/injection.rs:281-312", "src/operation/cleanup.rs:88-97"]}
{"id": "C106", "title": "Building a diagram is given up only when nothing can be done any more", "statement": "If building a diagram fails because no progress is made, then there are operations left to build, and a whole round has passed in which no operation was built or added and no output was connected or disposed of.", "quantifier": "every diagram, registry and order of draining the outputs", "why_tests_cant": "Whether progress is noticed depends on the order in which operations are deferred; tests try one order.", "anchors": ["src/diagram/workflow_builder.rs:789-923", "src/diagram/workflow_builder.rs:606-671"]}
{"id": "C107", "title": "A zenoh publisher with an ordering puts messages in that order", "statement": "With the ordering by request, messages are handed to zenoh in the order in which they reached the node, whatever the order in which their encoding is finished; a message that cannot be encoded is left out. No message is handed to zenoh twice, none that can be encoded is left out while the publisher works, and one is only handed over when the previous one is finished.", "quantifier": "every sequence of messages, every order in which encodings and publications are finished, every failure", "why_tests_cant": "The order in which tasks of a pool finish varies; tests see a few schedules.", "anchors": ["src/diagram/zenoh/register_zenoh_publisher.rs:201-290"]}
{"id": "C108", "title": "Each message given to a zenoh publisher is answered once and rightly", "statement": "Each message that reaches the node is answered at most once, and once everything is quiet exactly once; the answer is success only if zenoh has taken the message, and an error is the one of the encoding, of the creation of the publisher or of zenoh.", "quantifier": "every sequence of messages and every schedule", "why_tests_cant": "Whether an answer is ever lost or mixed up depends on the interleaving of the publishing task with the encodings.", "anchors": ["src/diagram/zenoh/register_zenoh_publisher.rs:201-290"]}
{"id": "C109", "title": "The settings of zenoh nodes reach zenoh", "statement": "Each setting in the configuration of a zenoh publisher, subscription or querier has the effect on the zenoh object that its name says.", "quantifier": "every configuration", "why_tests_cant": "Each setting has to be checked in combination with the others; zenoh does not tell what it was given.", "anchors": ["src/diagram/zenoh/register_zenoh_publisher.rs:56-140", "src/diagram/zenoh/register_zenoh_publisher.rs:205-245", "src/diagram/zenoh/register_zenoh_querier.rs:160-185", "src/diagram/zenoh/register_zenoh_subscription.rs:176-199"]}
{"id": "C110", "title": "The zenoh nodes of an application share one session", "statement": "However often diagrams with zenoh nodes are built, one session of zenoh is opened, and every zenoh node uses it.", "quantifier": "every sequence of builds, with any number of registries and worlds", "why_tests_cant": "Tests use one registry and one world.", "anchors": ["src/diagram/zenoh.rs:225-259"]}
{"id": "C111", "title": "A zenoh subscription node has one subscription at a time and passes on every sample", "statement": "For each session of its workflow a zenoh subscription node has at most one subscription. An input is refused with AlreadyActive exactly if there is one or it is about to be cleared away. Each sample comes out once and in order. A cancellation ends the subscription with its message.", "quantifier": "every sequence of inputs, samples, cancellations, polls and ends of sessions", "why_tests_cant": "The mark that a subscription is active is cleared by a command that the task sends, so that the claim is about all interleavings of tasks and commands.", "anchors": ["src/diagram/zenoh/register_zenoh_subscription.rs:125-245", "src/diagram/zenoh.rs:261-273"]}
{"id": "C112", "title": "A zenoh querier passes on every reply and then ends", "statement": "Each reply to the query comes out once and in order; the node answers when the replies are over and all of them are out, or with the error of the set-up, or with the message of a cancellation, which ends it at its next poll.", "quantifier": "every sequence of replies, cancellations and polls, either order of the halves of the race", "why_tests_cant": "Which half of the race is polled first is random.", "anchors": ["src/diagram/zenoh/register_zenoh_querier.rs:196-262", "src/diagram/zenoh.rs:261-273"]}
{"id": "C113", "title": "A gRPC call passes on the messages of the server, and ends when cancelled or late", "statement": "Each message of the server comes out once and in order, at most one if the method is not server streaming. The call succeeds only if the server has finished (or its one message is out), fails only with an error that occurred, is cancelled only with the message of a cancellation and times out only if the timeout has passed. A cancellation ends it at the next poll. If a timeout is set it ends a wait in which nothing happens.", "quantifier": "every sequence of what the server, the network and the timers do, every order of the halves of the races", "why_tests_cant": "Which half of a race is polled first is random, and a server can be slow at any point.", "anchors": ["src/diagram/grpc.rs:139-157", "src/diagram/grpc.rs:230-250", "src/diagram/grpc.rs:308-376"]}
{"id": "C114", "title": "A cleanup request of the parent is answered once, when the inner scope is clean", "statement": "When a scope asks an inner scope of it to clean up a session, the inner scope answers exactly once: at once if it has nothing for that session, and otherwise when its own session is gone, each of its operations has cleaned up, and the cleanup workflows that apply have run to their end. As soon as nothing of this is under way, the answer has been given, so that the outer scope never waits for ever.", "quantifier": "every scope, every history before the request, every sequence of events after it, for this and for other sessions", "why_tests_cant": "The answer depends on the order in which operations, cleanup workflows, cancellations and other requests come, over several flushes.", "anchors": ["src/operation/scope.rs:392-447", "src/operation/scope.rs:1235-1306", "src/operation/scope.rs:1785-1870", "src/operation/cleanup.rs:150-241"]}
{"id": "C115", "title": "A diagram that is saved and loaded again is the same diagram", "statement": "Writing a diagram as JSON and reading it again gives the same diagram: all operations with their targets, maps, settings, and trace settings, at any depth of scopes, and the templates. In particular, what was read from a file is read again from what is written for it, including everything that the file left to defaults.", "quantifier": "every diagram with any operations, nested to any depth; every file", "why_tests_cant": "The set of diagrams is unbounded, and the fields that are left out, flattened, untagged or tagged interact: a value can be written such that another variant reads it.", "anchors": ["src/diagram.rs:95-224", "src/diagram.rs:287-305", "src/diagram.rs:332-446", "src/diagram.rs:580-593", "src/diagram/section_schema.rs:359-393", "src/utils.rs:28-35"]}
{"id": "C116", "title": "Keys that the diagram format does not know change nothing", "statement": "An entry of a diagram or of an operation, at any depth, whose key has no meaning there, does not change what is read. An operation that does not have each key without default exactly once, or has an unknown type, is refused. So a misspelt required key is noticed, but a misspelt optional key is not: the operation silently has the default.", "quantifier": "every file, every position of the entry, every key and value", "why_tests_cant": "The files, the depth, and the keys are unbounded; tests only show single files.", "anchors": ["src/diagram.rs:287-305", "src/diagram.rs:363-402", "src/diagram/node_schema.rs:69-80", "src/diagram/scope_schema.rs:98-128"]}
{"id": "C117", "title": "Sessions of a workflow do not affect each other", "statement": "A workflow can run any number of sessions at once, and its operations keep the messages of all of them in the same queues. What happens in a session does not depend on the others: however they are mixed, the session is at each moment where its own events would have led it had it been the only one (the same messages at each operation, the same tasks, buffered values, keys and gates, and the same end), and whatever it could do alone it can still do. In particular the end of one session, the check of whether its terminal can be reached, and the cleanup after it leave the others as they are.", "quantifier": "every workflow of maps, tasks, services, forks, branches, filters, spreads, splits, buffers, joins, listens, accesses, static gates and scopes whose connections exist; any number of sessions; every interleaving", "why_tests_cant": "The number of sessions and interleavings is unbounded; a test has a few sessions in the order in which the flush happens to process them, and a leak from one session into another shows only in rare orders.", "anchors": ["src/input.rs:172-262", "src/input.rs:330-389", "src/operation/scope.rs:485-566", "src/operation/scope.rs:1018-1099", "src/flush.rs:282-320", "src/operation/operate_buffer.rs:128-175"]}
{"id": "C118", "title": "A run request to the execution server is answered with what its own workflow gave", "statement": "A client that posts a diagram and an input to the execution server gets exactly one answer, and it is its own: the error of its own diagram, or the value, the cancellation or the disposal of the one workflow that was made for it with its diagram and its input; 500 otherwise only if the app is down. Requests are started in the order in which they entered the channel, each once, and none is passed over; when its workflow has ended the handler can answer whatever the other clients do. (It should also hold that a client waits no longer than the response timeout, and that a diagram that panics harms no other client.)", "quantifier": "every number of clients, every diagram, every order of arrivals, runs of the systems, ends of workflows, polls of handlers and disconnects", "why_tests_cant": "A test posts one request and looks at one answer; mixed-up oneshots, lost requests or answers of another client show only when many requests are in flight in certain orders.", "anchors": ["diagram-editor/server/api/executor.rs:68-126", "diagram-editor/server/api/executor.rs:298-331", "diagram-editor/server/api/executor.rs:373-410", "diagram-editor/server/basic_executor.rs:98-106"]}
{"id": "C119", "title": "The execution server removes the workflows that it makes", "statement": "For each run request the execution server spawns a workflow into the world of the app. It is removed after it has ended and its handler has its outcome, and not before; once all requests are answered and the despawn channel has been emptied none is left, so that a server can run for as long as one likes. (It should hold as well for clients that disconnect and for diagrams with errors.)", "quantifier": "every number of clients, every diagram, every order of events", "why_tests_cant": "A leak shows as memory that grows over days; a test that posts a request does not look at the entities that are left, least of all after a disconnect at a certain moment.", "anchors": ["diagram-editor/server/api/executor.rs:96-101", "diagram-editor/server/api/executor.rs:359-370", "src/diagram.rs:494-534", "src/workflow.rs:226-277"]}
{"id": "C120", "title": "A diagram that is loaded into the editor and exported again is the same", "statement": "The diagram editor turns a diagram into nodes and edges and exports, and runs, what it makes of the nodes and edges. A diagram that is loaded and exported without any edit is the same diagram: it starts at the same place, has the same operations with the same fields in the same scopes, and the same settings. Whoever opens a working diagram to look at it, move nodes or change one operation may rely on the rest staying as it is.", "quantifier": "every diagram: every set of operations, every depth of scopes, every targets, buffers and streams; every registry", "why_tests_cant": "The tests of the editor compare two diagrams that use a few kinds of operations in a few positions; whether every kind of target survives in every position of every operation, at every depth, is a claim about all diagrams.", "anchors": ["diagram-editor/frontend/utils/load-diagram.ts:60-128", "diagram-editor/frontend/utils/operation.ts:67-367", "diagram-editor/frontend/utils/export-diagram.ts:87-487", "diagram-editor/frontend/node-manager.ts:88-158"]}
{"id": "C121", "title": "What the editor exports is what is drawn", "statement": "After any editing, the diagram that the editor exports, and runs, has exactly the connections that are drawn: every edge that the editor lets the user draw is in the exported diagram, no connection is left from before that is no longer drawn, and what is exported can be opened again and is then the same.", "quantifier": "every graph of nodes and edges that the editor accepts, whatever the nodes had as connections before; every registry", "why_tests_cant": "The tests of the editor export a few drawn graphs; that no field is left over and that no edge is lost in any combination of operations, edges and scopes is a claim about all graphs that can be drawn.", "anchors": ["diagram-editor/frontend/utils/export-diagram.ts:87-487", "diagram-editor/frontend/utils/connection.ts:25-65", "diagram-editor/frontend/utils/connection.ts:230-318", "diagram-editor/frontend/node-manager.ts:112-158", "diagram-editor/frontend/utils/load-diagram.ts:60-128"]}
{"id": "C122", "title": "Editing keeps a diagram well formed", "statement": "Whatever a user does in the editor - add operations, draw, reroute, change and remove edges, remove nodes, rename and change operations - the diagram stays well formed: no two operations get in each other's place, everything is in a scope that exists, every edge has both its ends and a type that they allow, and an output for one edge has no second one. Removing a node removes what is in it, at any depth, with all edges of it, and nothing else. What has been edited can always be exported, with every edge.", "quantifier": "every sequence of edits of any length, starting with an empty diagram; every set of nodes that are removed; every registry", "why_tests_cant": "The tests of the editor try single clicks on small diagrams. That no sequence of edits leads to an edge without an end, an orphaned operation or a diagram that cannot be exported is an invariant over all sequences.", "anchors": ["diagram-editor/frontend/diagram-editor.tsx:322-366", "diagram-editor/frontend/diagram-editor.tsx:524-657", "diagram-editor/frontend/utils/connection.ts:25-318", "diagram-editor/frontend/add-operation.tsx:83-123", "diagram-editor/frontend/nodes/create-node.ts:116-183", "diagram-editor/frontend/forms/edit-edge-form.tsx:48-170", "diagram-editor/frontend/forms/base-edit-operation-form.tsx:44-57"]}
{"id": "C123", "title": "What a workflow responds with is what its graph computes, whatever the order of execution", "statement": "Read as a graph of functions, a workflow computes certain messages for each operation from a request. Whatever the order in which its operations and tasks get their turn, it responds only with a value that the graph computes for its terminal, so when there is one such value all executions agree on it. If its joins do not race for values and no loop leads into a join, a workflow whose graph computes a response is never cancelled, can respond at any time, and has responded when nothing is left to do.", "quantifier": "every workflow of nodes, forks, branches, filters, spreads, splits, buffers and joins, with any functions over any type of messages; every request; every interleaving of operations, tasks, stream items and checks of the scope", "why_tests_cant": "A test runs a workflow in one order of execution, that of a small executor, with a few requests. That no other order gives another response, a cancellation or a hang is a statement about all interleavings.", "anchors": ["src/operation/operate_map.rs:83-260", "src/operation/fork_clone.rs:60-94", "src/operation/branching.rs:131-202", "src/operation/spread.rs:59-85", "src/operation/operate_split.rs:63-121", "src/operation/operate_buffer.rs:66-95", "src/operation/join.rs:60-83", "src/buffer/fetch_from_buffer.rs:128-175", "src/operation/scope.rs:485-628", "src/operation/scope.rs:1018-1099", "src/operation/scope.rs:1292-1371"]}
{"id": "C124", "title": "A workflow without loops comes to an end, with the response that its graph computes", "statement": "In a workflow without loops only finitely many events change anything, in whatever order they come. As long as something happens whenever something can, every session of it comes to a point where it has ended or nothing is left to do. If its joins do not race for values it then has responded with the value that its graph computes; if its joins pull from buffers of their own and the graph computes no response, it has been cancelled.", "quantifier": "every workflow without loops, with any functions over any type of messages; every request; every endless schedule of events in which something happens whenever something can", "why_tests_cant": "Termination under every schedule is a liveness property: a test can only see that one schedule ended within its timeout, and not that no schedule goes on for ever or gets stuck.", "anchors": ["src/operation/operate_map.rs:83-260", "src/operation/operate_task.rs:246-256", "src/operation/spread.rs:59-85", "src/operation/operate_buffer.rs:66-95", "src/operation/join.rs:60-83", "src/operation/scope.rs:485-628", "src/operation/scope.rs:1018-1099", "src/disposal.rs:493-544"]}
{"id": "C125", "title": "A limit on polling keeps a flush from getting stuck, and starves no future", "statement": "With a limit, polling the single-threaded executor ends whatever the futures do, and polls no more futures than the limit. Nothing that was sent or woken is lost, and each channel is served in order: a future that was woken is resumed after a number of polls that depends only on its place in the line, however often other futures wake themselves. Without a limit a poll that ends leaves no future that is awake.", "quantifier": "every behaviour of the futures (what they send and wake may depend on anything); every limit; every sequence of sending, waking and polling", "why_tests_cant": "A test has some futures that wake each other in some way; that no futures at all can hold up a flush or starve others quantifies over all behaviours and all sequences.", "anchors": ["src/async_execution/single_threaded_execution.rs:31-124", "src/flush.rs:59-66", "src/flush.rs:324-325"]}
{"id": "C126", "title": "A section template that is opened in the diagram editor and saved is the same", "statement": "A section template that is opened for editing and saved without a change has the same inputs, buffers and outputs, under the same names and leading to the same places, and the same operations in the same scopes. An edge that is drawn from an input or a buffer and saved is what that name leads to, and nothing else is changed by it.", "quantifier": "every section template with different names; every registry; every graph of a template that can be saved", "why_tests_cant": "There are as many templates as there are nested maps of operations; a test saves one of them and compares it.", "anchors": ["diagram-editor/frontend/utils/load-diagram.ts:134-181", "diagram-editor/frontend/utils/export-diagram.ts:489-530", "diagram-editor/frontend/utils/operation.ts:126-367", "diagram-editor/frontend/node-manager.ts:14-158", "diagram-editor/frontend/utils/connection.ts:25-65"]}
{"id": "C127", "title": "What is added to a template in the diagram editor gets a name of its own", "statement": "A new input, output or buffer of a template gets a name that none of its kind has yet: the name that was wished for if it is free, and otherwise that name with a number. Adding an input or a buffer changes nothing else of the template that is saved.", "quantifier": "every list of names, with duplicates or not, every wished name and separator; every graph of a template that can be saved", "why_tests_cant": "That the numbers tried and the one fallen back on are never all taken is an argument about all lists of names; a test tries a few.", "anchors": ["diagram-editor/frontend/utils/unique-value.ts:4-20", "diagram-editor/frontend/add-operation.tsx:133-194", "diagram-editor/frontend/utils/export-diagram.ts:489-530"]}
{"id": "C128", "title": "Whatever the diagram editor keeps can also be drawn in it", "statement": "For every diagram that the editor keeps when it is opened and exported, there is a sequence of edits (adding operations, drawing edges and filling in their forms) that leads from an empty diagram to one that is exported as this diagram: the rules for drawing do not forbid anything that a workflow can have.", "quantifier": "every registry and every diagram that the editor keeps, with scopes to any depth", "why_tests_cant": "It says that for every diagram there are edits that make it; a test can only try edits for a few diagrams.", "anchors": ["diagram-editor/frontend/utils/connection.ts:25-190", "diagram-editor/frontend/utils/connection.ts:238-318", "diagram-editor/frontend/diagram-editor.tsx:524-632", "diagram-editor/frontend/add-operation.tsx:83-123", "diagram-editor/frontend/forms/edit-edge-form.tsx:48-170", "diagram-editor/frontend/utils/export-diagram.ts:451-487"]}
{"id": "C129", "title": "A field of the form of a connection sets what it says and nothing else", "statement": "In the diagram editor, what is entered in a field of the form of a connection (its type, the stream, key, index or output it starts at, the input or buffer of a section it ends at, the key or index of a buffer, and whether a join clones the buffer) is what the connection has afterwards; it has the same ends, and what it says in the other fields of the form stays, but for those that are there for the choice that was made.", "quantifier": "every well-formed diagram, every connection in it, every field that its form has and everything that can be entered", "why_tests_cant": "There are as many cases as pairs of fields, types and things to enter; tests of the forms only look at one field at a time.", "anchors": ["diagram-editor/frontend/forms/edit-edge-form.tsx:48-175", "diagram-editor/frontend/forms/buffer-edge-form.tsx:29-235", "diagram-editor/frontend/forms/unzip-edge-form.tsx:10-31", "diagram-editor/frontend/forms/split-edge-form.tsx", "diagram-editor/frontend/forms/data-input-form.tsx:27-82", "diagram-editor/frontend/forms/stream-out-edge-form.tsx:14-55", "diagram-editor/frontend/forms/section-form.tsx:222-272"]}
{"id": "C130", "title": "The list of templates loses none but those that are deleted", "statement": "In the diagram editor, adding a template adds an empty one under a name that no other has; deleting one removes that one; renaming one gives it the new name, keeps all others and their order, and the sections that use it still do; editing one and saving it changes that one only, and then the diagram is shown as it was before.", "quantifier": "every list of templates, every sequence of actions that leads to it, every name that is entered and everything that is done while a template is edited", "why_tests_cant": "The dialog, the list and the editor have states of their own that stay while others change; tests look at one action from one list of templates, and not at names that are taken.", "anchors": ["diagram-editor/frontend/edit-templates-dialog.tsx:35-213", "diagram-editor/frontend/diagram-editor.tsx:155-192", "diagram-editor/frontend/diagram-editor.tsx:731-752", "diagram-editor/frontend/command-panel.tsx:43-73", "diagram-editor/frontend/templates-provider.tsx"]}
{"id": "C131", "title": "The automatic layout puts every node where it was computed and scopes around what is in them", "statement": "In the diagram editor, every diagram that can be drawn can be laid out: each node that is not a scope appears on the screen where the layout library put it, although nodes in scopes are placed relative to the scope; the box of each scope goes around all that is in it with the margins that are set and is no larger; and the library is told of all connections, with the start or the end in place of a scope and those of errors and streams last.", "quantifier": "every diagram that a sequence of edits makes, every result of the layout library and every size of nodes and margins", "why_tests_cant": "The result depends on the library, on the sizes and on the nesting; the only test of the layout uses one diagram without scopes.", "anchors": ["diagram-editor/frontend/utils/auto-layout.ts:18-173", "diagram-editor/frontend/utils/layout.ts:12-48", "diagram-editor/frontend/auto-layout-button.tsx:19-33", "diagram-editor/frontend/diagram-editor.tsx:502-518"]}
{"id": "C132", "title": "Moving a node in a scope resizes the scope and leaves everything else in place", "statement": "In the diagram editor, when a node in a scope is moved, it is then where it was put; the box of the scope follows so that all that is in the scope is inside of it; and everything else stays where it is on the screen, although positions are relative to the scope. The button for the automatic layout, whose changes go the same way, puts every node where the layout library did.", "quantifier": "every diagram that a sequence of edits makes, every nesting of scopes, every position of the nodes and every place that a node is moved to", "why_tests_cant": "What is moved along depends on the positions of all nodes in the scope, on its size and on thresholds; there are no tests of moving nodes.", "anchors": ["diagram-editor/frontend/diagram-editor.tsx:80-110", "diagram-editor/frontend/diagram-editor.tsx:224-366", "diagram-editor/frontend/utils/layout.ts:12-48", "diagram-editor/frontend/auto-layout-button.tsx:19-33"]}
{"id": "C133", "title": "A blocking service, map or callback can be used again after every request", "statement": "A blocking service, map or callback serves any number of requests one after the other, each with the state that its system was left in by the one before; a request that fails, because its target is gone or its streams cannot be processed, affects no other request; requests to a service that was removed, also by itself while it was running, are disposed of; and no request panics.", "quantifier": "every system, every sequence of requests and everything that the system does meanwhile to its service, its node, the target and the streams that it was given", "why_tests_cant": "What a system does to the world while it runs is arbitrary, and an error in one request shows only in a later one; no test has a request after a failed one.", "anchors": ["src/service/blocking.rs:71-186", "src/operation/operate_map.rs:85-133", "src/operation/operate_callback.rs:61-117", "src/callback.rs:275-318", "src/stream/anonymous_stream.rs:156-190"]}
