{
 "claims": [
  {
   "property": "C01",
   "status": "proved",
   "theorems": [
    "Verif.Buffer.C01_retention_window",
    "Verif.Buffer.C01_retention_window_fresh"
   ],
   "note": "All policies, all interleavings with other sessions; histories that do not use push_as_oldest on KeepFirst(0) (see C03)."
  },
  {
   "property": "C02",
   "status": "partial",
   "theorems": [
    "Verif.Buffer.C02_refines_list_partial",
    "Verif.Buffer.C02_refines_list_violated"
   ],
   "note": "Refinement to an oldest-first list for every history without ranged drains (C05) and without push_as_oldest on KeepFirst(0); the code violates the full statement in those corners."
  },
  {
   "property": "C03",
   "status": "partial",
   "theorems": [
    "Verif.Buffer.C03_capacity_partial",
    "Verif.Buffer.C03_capacity_violated"
   ],
   "note": "Holds for every history except push_as_oldest on KeepFirst(0), where the code stores a value beyond capacity (witness proved)."
  },
  {
   "property": "C04",
   "status": "proved",
   "theorems": [
    "Verif.Buffer.C04_sessions_isolated"
   ],
   "note": "Non-interference: contents and observations of a session equal those of the history restricted to that session."
  },
  {
   "property": "C05",
   "status": "partial",
   "theorems": [
    "Verif.Buffer.C05_drain_partial",
    "Verif.Buffer.C05_drain_symmetric",
    "Verif.Buffer.C05_drain_violated"
   ],
   "note": "The code drains mirrored indices; exact behaviour proved, documented behaviour proved for symmetric ranges (including ..), witness of violation proved."
  },
  {
   "property": "C06",
   "status": "proved",
   "theorems": [
    "Verif.Buffer.C06_conservation"
   ],
   "note": "Permutation over every history without in-place writes."
  },
  {
   "property": "C07",
   "status": "proved",
   "theorems": [
    "Verif.Input.C07_inputs_fifo",
    "Verif.Input.C07_arrival_order"
   ],
   "note": "Every history of sends, takes and cleanups of an operation that owns an input storage."
  },
  {
   "property": "C08",
   "status": "partial",
   "theorems": [
    "Verif.Input.C08_cleanup_exact",
    "Verif.Input.C08_cleanup_into_buffer_partial",
    "Verif.Input.C08_cleanup_order_violated"
   ],
   "note": "Removal is exact for every queue. A buffer receives exactly the removed inputs, but the code pushes them newest first: arrival order holds only with at most one waiting input (witness of violation proved)."
  },
  {
   "property": "C09",
   "status": "proved",
   "theorems": [
    "Verif.Sched.C09_inputs_scheduled",
    "Verif.Sched.C09_nothing_forgotten"
   ],
   "note": "Every application built from operations that take one input per execution, every limit, every interleaving with other threads and systems. Operations that execute another one on the spot (scope start of cleanup workflows, injection) are outside this model."
  },
  {
   "property": "C10",
   "status": "proved",
   "theorems": [
    "Verif.Flush.C10_no_work_lost",
    "Verif.Flush.C10_in_order",
    "Verif.Flush.C10_leftover_in_order",
    "Verif.Flush.C10_all_kept",
    "Verif.Flush.C10_limit_bounds_flush",
    "Verif.Flush.C10_progress",
    "Verif.Flush.C10_limit_zero_violated"
   ],
   "note": "Arbitrary operation behaviour, changing limits, arbitrary interleaving. The negative theorem documents that limit 0 stalls all work."
  },
  {
   "property": "C11",
   "status": "partial",
   "theorems": [
    "Verif.Flush.C11_channel_limit_partial",
    "Verif.Flush.C11_channel_order",
    "Verif.Flush.C11_collection_begins",
    "Verif.Flush.C11_collection_ends",
    "Verif.Flush.C11_channel_limit_violated"
   ],
   "note": "The code receives up to n+1 items per collection (off by one); that bound and the order are proved, and a witness of the violation."
  },
  {
   "property": "C12",
   "status": "partial",
   "theorems": [
    "Verif.Drop.C12_drop_target_partial",
    "Verif.Drop.C12_unused_series_partial",
    "Verif.Drop.C12_dropped_promise_violated",
    "Verif.Drop.C12_dropped_promise_ignored",
    "Verif.Drop.C12_schedule_partial"
   ],
   "note": "Dropping a terminal removes exactly the right steps, but the flush discards the notifications of dropped promises (it iterates over an already drained list), so the full claim is false of the code."
  },
  {
   "property": "C13",
   "status": "partial",
   "theorems": [
    "Verif.Graph.C13_downstream_partial",
    "Verif.Graph.C13_downstream_sound",
    "Verif.Graph.C13_named_streams_violated"
   ],
   "note": "Exact on every graph, cyclic or not, without connections from named streams; with named streams the code misses paths (witness proved) but never invents one."
  },
  {
   "property": "C14",
   "status": "partial",
   "theorems": [
    "Verif.Graph.C14_terminates",
    "Verif.Graph.C14_answers",
    "Verif.Graph.C14_sound",
    "Verif.Graph.C14_reachability_partial",
    "Verif.Graph.C14_activity_upstream",
    "Verif.Graph.C14_join_cycle_violated",
    "Verif.Graph.C14_order_dependent",
    "Verif.Graph.C14_dynamic_gate_violated"
   ],
   "note": "Terminates on every graph and never wrongly answers reachable. Exact when no cycle lies upstream of a join of several buffers or of a buffer with a closed, openable gate. With such cycles the code caches a provisional answer and can be wrong (witnesses proved)."
  },
  {
   "property": "C15",
   "status": "proved",
   "theorems": [
    "Verif.BufNet.C15_join_fires",
    "Verif.BufNet.C15_in_order",
    "Verif.BufNet.C15_in_order_limited",
    "Verif.BufNet.C15_lockstep"
   ],
   "note": "One execution in any state, and every run. Lock-step by position needs an unlimited buffer from which only this join pulls and which is not edited by key; with limited retention the order is preserved."
  },
  {
   "property": "C16",
   "status": "proved",
   "theorems": [
    "Verif.BufNet.C16_join_fired",
    "Verif.BufNet.C16_no_set_left"
   ],
   "note": "C16_join_fired is the claim for any retention, mode, gate operation and key use by others. C16_no_set_left is stronger for pulling joins with open gates."
  },
  {
   "property": "C17",
   "status": "proved",
   "theorems": [
    "Verif.BufNet.C17_closed_silent",
    "Verif.BufNet.C17_data_kept",
    "Verif.BufNet.C17_open_wakes",
    "Verif.BufNet.C17_repeat",
    "Verif.BufNet.C17_gates_independent"
   ],
   "note": ""
  },
  {
   "property": "C18",
   "status": "partial",
   "theorems": [
    "Verif.BufNet.C18_key_closes_partial",
    "Verif.BufNet.C18_never_touched_ignored",
    "Verif.BufNet.C18_never_touched_violated"
   ],
   "note": "Holds if a gate operation of the workflow has acted on the buffer in the session before. Otherwise the code ignores the request (proved for every run, with a witness against the full claim)."
  },
  {
   "property": "C19",
   "status": "proved",
   "theorems": [
    "Verif.Collect.C19_batch_size",
    "Verif.Collect.C19_conservation",
    "Verif.Collect.C19_full_while_open",
    "Verif.Collect.C19_prompt",
    "Verif.Collect.C19_exhausted"
   ],
   "note": "Every bounds, every sequence of inputs, disposals and cleanups, every answer of the upstream search."
  },
  {
   "property": "C20",
   "status": "proved",
   "theorems": [
    "Verif.Collect.C20_isolation",
    "Verif.Collect.C20_refinement"
   ],
   "note": "The batches of a session are those of a node that sees only that session."
  },
  {
   "property": "C21",
   "status": "partial",
   "theorems": [
    "Verif.Delivery.C21_one_at_a_time_partial",
    "Verif.Delivery.C21_one_at_a_time_without_preemption",
    "Verif.Delivery.C21_one_at_a_time_workflow",
    "Verif.Delivery.C21_violated",
    "Verif.Delivery.C21_continuous_violated"
   ],
   "note": "All three kinds of providers. Proved for every run without a pre-empting request whose target is already being cleaned up, for every run of a workflow service, and for every run without pre-emption. A request that pre-empts a task that was already cleaned up twice unblocks its lane twice (witness proved)."
  },
  {
   "property": "C22",
   "status": "proved",
   "theorems": [
    "Verif.Delivery.C22_never_panics",
    "Verif.Delivery.C22_order",
    "Verif.Delivery.C22_started_once",
    "Verif.Delivery.C22_first_come_first_served",
    "Verif.Delivery.C22_waiting_is_served",
    "Verif.Delivery.C22_next_starts",
    "Verif.Delivery.C22_next_starts_workflow",
    "Verif.Delivery.C22_next_starts_continuous"
   ],
   "note": "Asynchronous services, workflows and continuous services, serial and labelled delivery, every sequence of arrivals, endings, cleanups and pre-emptions. Whether a queue whose active request was cleaned up goes on is C59."
  },
  {
   "property": "C23",
   "status": "partial",
   "theorems": [
    "Verif.Delivery.C23_preempt",
    "Verif.Delivery.C23_preempt_continuous",
    "Verif.Delivery.C23_no_preempt",
    "Verif.Delivery.C23_protected_not_discarded",
    "Verif.Delivery.C23_protected_not_stopped",
    "Verif.Delivery.C23_workflow_violated"
   ],
   "note": "Holds for asynchronous and continuous services. A workflow stops the active request by cancelling every session of its parent session, which also stops protected requests and requests with other labels (witness proved)."
  },
  {
   "property": "C24",
   "status": "proved",
   "theorems": [
    "Verif.Delivery.C24_accounting",
    "Verif.Delivery.C24_distinct",
    "Verif.Delivery.C24_started"
   ],
   "note": "Exact accounting of every accepted request in every run of each of the three kinds of providers."
  },
  {
   "property": "C25",
   "status": "partial",
   "theorems": [
    "Verif.Reentrant.C25_one_level_partial",
    "Verif.Reentrant.C25_sequence_partial",
    "Verif.Reentrant.C25_violated"
   ],
   "note": "Proved for requests that cause requests which cause no further ones; for every deeper tree the code locks a mutex that the same thread holds (proved)."
  },
  {
   "property": "C26",
   "status": "partial",
   "theorems": [
    "Verif.Continuous.C26_never_panics_partial",
    "Verif.Continuous.C26_answers_partial",
    "Verif.Continuous.C26_queue_partial",
    "Verif.Continuous.C26_at_most_once_partial",
    "Verif.Continuous.C26_waiting_partial",
    "Verif.Continuous.C26_two_systems_violated",
    "Verif.Continuous.C26_cleanup_violated",
    "Verif.Continuous.C26_panic_violated"
   ],
   "note": "Proved for runs in which the responses of a system are delivered before anything else happens to the service. Responses are delivered by position with a delay, so a second system or a cleanup in between leads to double responses, to the removal of the wrong order, or to a panic (witnesses proved)."
  },
  {
   "property": "C27",
   "status": "partial",
   "theorems": [
    "Verif.Scope.C27_at_most_one_partial",
    "Verif.Scope.C27_at_most_one_interruptible",
    "Verif.Scope.C27_first_value_partial",
    "Verif.Scope.C27_exactly_one_partial",
    "Verif.Scope.C27_not_lost_partial",
    "Verif.Scope.C27_both_violated",
    "Verif.Scope.C27_none_violated"
   ],
   "note": "At most one outcome for every run of a scope that can be interrupted and for every run of an uninterruptible scope without late cleanup requests; exactly one, and the right one, for runs in which the parent asks for no cleanup and a cancel signal concerns at most one session. In the other runs a request can get two outcomes or none (witnesses proved)."
  },
  {
   "property": "C28",
   "status": "partial",
   "theorems": [
    "Verif.Scope.C28_after_cleanup_partial",
    "Verif.Scope.C28_prompt_partial",
    "Verif.Scope.C28_early_violated"
   ],
   "note": "For runs in which the parent asks for no cleanup and a cancel signal concerns at most one session. When the parent asks for a cleanup of a session that has terminated, the response can be passed on before an operation answered (witness proved)."
  },
  {
   "property": "C29",
   "status": "partial",
   "theorems": [
    "Verif.Scope.C29_keeps_running_partial",
    "Verif.Scope.C29_answered_at_once",
    "Verif.Scope.C29_parent_waits_violated"
   ],
   "note": "The scope keeps running: same outcomes with and without cleanup requests. The cleanup of the parent does not wait: it is answered at once in every state, and the session is lost when the parent session is despawned (witness proved)."
  },
  {
   "property": "C30",
   "status": "proved",
   "theorems": [
    "Verif.Promise.C30_refines",
    "Verif.Promise.C30_sneak_peek",
    "Verif.Promise.C30_stable",
    "Verif.Promise.C30_one_response"
   ],
   "note": "Refinement to a promise that is settled at most once, for every sequence of operations."
  },
  {
   "property": "C31",
   "status": "proved",
   "theorems": [
    "Verif.Promise.Race.C31_no_sleep",
    "Verif.Promise.Race.C31_all_return",
    "Verif.Promise.Race.C31_few_steps",
    "Verif.Promise.Race.C31_not_early"
   ],
   "note": "Any number of threads, any schedule of atomic steps, spurious wake-ups. Memory is sequentially consistent; poisoned mutexes are not modelled."
  },
  {
   "property": "C32",
   "status": "partial",
   "theorems": [
    "Verif.Promise.Race.C32_wakes_partial",
    "Verif.Promise.Race.C32_next_poll_ready",
    "Verif.Promise.Race.C32_violated"
   ],
   "note": "poll looks for the result and stores its waker in two critical sections; a result set in between wakes nobody (witness proved)."
  },
  {
   "property": "C33",
   "status": "partial",
   "theorems": [
    "Verif.Promise.Race.C33_no_sleep_partial",
    "Verif.Promise.Race.C33_returns_partial",
    "Verif.Promise.Race.C33_no_new_wait",
    "Verif.Promise.Race.C33_violated"
   ],
   "note": "interrupt notifies without holding the mutex of the promise; a waiter between its check and blocking misses it (witness proved). Interrupts are never reset in these theorems."
  },
  {
   "property": "C34",
   "status": "proved",
   "theorems": [
    "Verif.Promise.C34_flatten",
    "Verif.Promise.C34_taken_order_dependent"
   ],
   "note": "Every order of operations in which nobody takes the inner result before. If somebody did, the outcome depends on the order (disposed or taken; witness proved)."
  },
  {
   "property": "C35",
   "status": "proved",
   "theorems": [
    "Verif.Fork.C35_result",
    "Verif.Fork.C35_option",
    "Verif.Fork.C35_all"
   ],
   "note": "Per message in every world, and for the whole queue of a fork. In a session that is no longer active nothing is delivered."
  },
  {
   "property": "C36",
   "status": "proved",
   "theorems": [
    "Verif.Split.C36_list",
    "Verif.Split.C36_map",
    "Verif.Split.C36_json",
    "Verif.Split.C36_conserved",
    "Verif.Split.C36_built_list",
    "Verif.Split.C36_after_failure_violated"
   ],
   "note": "Every list, map and JSON value and every set of connections. After a failed split, which only a user-written collection type can cause, connections that get nothing may go unreported (witness proved)."
  },
  {
   "property": "C37",
   "status": "proved",
   "theorems": [
    "Verif.Split.C37_at_most_once",
    "Verif.Split.C37_output_for",
    "Verif.Split.C37_next_list",
    "Verif.Split.C37_next_map",
    "Verif.Split.C37_next_array",
    "Verif.Split.C37_diagram_map",
    "Verif.Split.C37_diagram_list_clash"
   ],
   "note": "Every sequence of calls, for every collection type of the library; at most once and refusals for any key type."
  },
  {
   "property": "C38",
   "status": "partial",
   "theorems": [
    "Verif.Fork.C38_clone_partial",
    "Verif.Fork.C38_clone_branches",
    "Verif.Fork.C38_unzip",
    "Verif.Fork.C38_spread",
    "Verif.Fork.C38_spread_all",
    "Verif.Fork.C38_no_branch_violated"
   ],
   "note": "Every number of branches from one on. A fork-clone that nobody connected to panics on its first message (proved)."
  },
  {
   "property": "C39",
   "status": "proved",
   "theorems": [
    "Verif.Streams.C39_channels",
    "Verif.Streams.C39_unregistered",
    "Verif.Streams.C39_deferred",
    "Verif.Streams.C39_buffers",
    "Verif.Streams.C39_duplicates",
    "Verif.Streams.C39_own_output",
    "Verif.Streams.C39_workflow",
    "Verif.Streams.C39_workflow_ended",
    "Verif.Streams.C39_scope"
   ],
   "note": "Every pack of the provider, every pack and set of outputs of the node, every sequence of items, for the channels of asynchronous providers, the buffers of blocking and continuous ones, and the stream exits of workflows and scopes."
  },
  {
   "property": "C40",
   "status": "partial",
   "theorems": [
    "Verif.Trim.C40_partial",
    "Verif.Trim.C40_ends",
    "Verif.Trim.C40_downstream",
    "Verif.Trim.C40_single",
    "Verif.Trim.C40_refused",
    "Verif.Trim.C40_unreachable_violated",
    "Verif.Trim.C40_cycle_violated",
    "Verif.Trim.C40_empty_violated",
    "Verif.Trim.C40_named_violated"
   ],
   "note": "Exact for every graph without named streams when the ends of all spans can be reached from their starts. False of the code: an unreachable end is not refused but trimmed alone, operations that only lead back to the start are trimmed, a span without ends trims nothing, and targets of named streams are not seen as downstream (each proved)."
  },
  {
   "property": "C41",
   "status": "partial",
   "theorems": [
    "Verif.Trim.C41_sent_partial",
    "Verif.Trim.C41_progress",
    "Verif.Trim.C41_after",
    "Verif.Trim.C41_cancel",
    "Verif.Trim.C41_never_violated"
   ],
   "note": "Holds when there is something to trim and each trimmed operation has a cleanup and is not the trim itself; refused branches cancel. False of the code otherwise: no message is ever sent on when the set is empty, contains the trim, or contains an output that nobody connected (proved for all runs)."
  },
  {
   "property": "C42",
   "status": "proved",
   "theorems": [
    "Verif.Series.C42_cancel",
    "Verif.Series.C42_chain",
    "Verif.Series.C42_once",
    "Verif.Series.C42_again"
   ],
   "note": "Chains that are not detached and whose terminal was not dropped (see Verif/Drop for those). Holds for every entity that has an operation."
  },
  {
   "property": "C43",
   "status": "partial",
   "theorems": [
    "Verif.Series.C43_first_partial",
    "Verif.Series.C43_violated",
    "Verif.Series.C43_collect_violated"
   ],
   "note": "False of the code: the entity that pushes a stream is despawned after the first item, so a collection gets exactly the first item of a stream (C43_violated, any number of items); and storing, pushing or taking the response after collect_streams replaces the stream map, so nothing is collected (C43_collect_violated)."
  },
  {
   "property": "C44",
   "status": "partial",
   "theorems": [
    "Verif.Diagram.C44_partial",
    "Verif.Diagram.C44_once",
    "Verif.Diagram.C44_start",
    "Verif.Diagram.C44_direct",
    "Verif.Diagram.C44_section",
    "Verif.Diagram.C44_scope",
    "Verif.Diagram.C44_violated"
   ],
   "note": "Every output is connected to what its target leads to, or disposed of because the target leads to dispose, or lost; lost only happens to an output whose target is a redirection. False of the code: a deferred connection replaces a redirected one with the same target, so an output of a section can be dropped silently in a build that succeeds (C44_violated)."
  },
  {
   "property": "C45",
   "status": "proved",
   "theorems": [
    "Verif.Diagram.C45_assoc",
    "Verif.Diagram.C45_child",
    "Verif.Diagram.C45_names",
    "Verif.Diagram.C45_operations"
   ],
   "note": "For operations; the output slot of a section and an operation inside of it with the same name do share a reference, which the builder reports as duplicate inputs."
  },
  {
   "property": "C46",
   "status": "partial",
   "theorems": [
    "Verif.Diagram.C46_template",
    "Verif.Diagram.C46_error",
    "Verif.Diagram.C46_diagram",
    "Verif.Diagram.C46_create",
    "Verif.Diagram.C46_built",
    "Verif.Diagram.C46_scope_violated",
    "Verif.Diagram.C46_buffer"
   ],
   "note": "Validation is exact for the templates that are used by the root operations and by the templates these use, and create refuses the diagram with its error (C46_create). A diagram that builds has no such template anywhere (C46_built). False of the code for templates that are only used inside of a scope: they are not validated (C46_scope_violated)."
  },
  {
   "property": "C47",
   "status": "partial",
   "theorems": [
    "Verif.Keys.C47_usage_partial",
    "Verif.Keys.C47_usage_atomic_partial",
    "Verif.Keys.C47_disposal",
    "Verif.Keys.C47_disposal_only",
    "Verif.Keys.C47_recheck_partial",
    "Verif.Keys.C47_race_violated",
    "Verif.Keys.C47_multi_violated"
   ],
   "note": "The usage check is exact for one buffer; the notice is sent exactly once per key when its last clone is dropped (any number of buffers). False of the code: with two or more buffers the session counts as in use for ever (C47_multi_violated), and a notice received between Drop::drop and the drop of the tracker finds the session still in use with no later notice (C47_race_violated)."
  },
  {
   "property": "C48",
   "status": "proved",
   "theorems": [
    "Verif.BufNet.C48_modified_wakes_once",
    "Verif.BufNet.C48_reading_silent",
    "Verif.BufNet.C48_changed_wakes",
    "Verif.BufNet.C48_ended_session_silent",
    "Verif.BufNet.C48_notified_scheduled"
   ],
   "note": "Closed gates are covered by C17."
  },
  {
   "property": "C49",
   "status": "partial",
   "theorems": [
    "Verif.Task.C49_one_outcome",
    "Verif.Task.C49_reported",
    "Verif.Task.C49_ends",
    "Verif.Task.C49_cleanup_partial",
    "Verif.Task.C49_cleanup_finishes_partial",
    "Verif.Task.C49_overlap_violated",
    "Verif.Task.C49_violated"
   ],
   "note": "The outcome of each task is proved for every run. The report of a cleanup is exact unless a task is cleaned up twice or is being stopped when the cleanup begins; in the second case it is never reported (witnesses proved)."
  },
  {
   "property": "C50",
   "status": "partial",
   "theorems": [
    "Verif.Reentrant.C50_all_dispatched_partial",
    "Verif.Reentrant.C50_order",
    "Verif.Reentrant.C50_unavailable",
    "Verif.Reentrant.C50_unavailable_violated"
   ],
   "note": "Proved for every tree of nested requests whose services are available, and for an unavailable outermost service. If a service requested inside a dispatch is unavailable, its request is forgotten and requests of the outermost service are disposed of instead (witness proved)."
  },
  {
   "property": "C51",
   "status": "proved",
   "theorems": [
    "Verif.Diagram.C51_hints",
    "Verif.Diagram.C51_order"
   ],
   "note": "The inference function, for every list of hints. Which hints are filed for a buffer, and whether the type is taken from a waiting output instead, is modelled in Verif/Diagram/Build.lean."
  },
  {
   "property": "C52",
   "status": "proved",
   "theorems": [
    "Verif.Inject.C52_forward",
    "Verif.Inject.C52_once",
    "Verif.Inject.C52_request",
    "Verif.Inject.C52_cleanup",
    "Verif.Inject.C52_only"
   ],
   "note": "Services are the environment: they answer, dispose or report a cleanup whenever they like. Cleanup ids are assumed not to be reused."
  },
  {
   "property": "C53",
   "status": "partial",
   "theorems": [
    "Verif.BufNet.C53_catch_up_partial",
    "Verif.BufNet.C53_gate_violated",
    "Verif.BufNet.C53_key_violated"
   ],
   "note": "A gate that opens, or one access by key that adds several values, wakes the join once; complete sets can stay behind (witnesses proved)."
  },
  {
   "property": "C54",
   "status": "partial",
   "theorems": [
    "Verif.BufNet.C54_repeated_buffer_partial",
    "Verif.BufNet.C54_same_buffer_violated"
   ],
   "note": "With fewer values than occurrences the join takes values, fails and sends nothing (witness proved)."
  },
  {
   "property": "C55",
   "status": "partial",
   "theorems": [
    "Verif.Promise.Race.C55_wait_mut_partial",
    "Verif.Promise.Race.C55_violated"
   ],
   "note": "If the result has arrived before wait_mut is called the state stays pending (witness proved)."
  },
  {
   "property": "C56",
   "status": "proved",
   "theorems": [
    "Verif.Promise.C56_drop_fires_once",
    "Verif.Promise.C56_seen_never_fires"
   ],
   "note": ""
  },
  {
   "property": "C57",
   "status": "proved",
   "theorems": [
    "Verif.Promise.C57_flat_drop_reaches_source"
   ],
   "note": ""
  },
  {
   "property": "C58",
   "status": "partial",
   "theorems": [
    "Verif.Delivery.C58_cleanup_partial",
    "Verif.Delivery.C58_violated",
    "Verif.Delivery.C58_continuous_violated"
   ],
   "note": "Running tasks of other nodes are left alone; the queue is filtered by session only, so waiting requests of other nodes in the same session are removed (witness proved)."
  },
  {
   "property": "C59",
   "status": "partial",
   "theorems": [
    "Verif.Delivery.C22_waiting_is_served",
    "Verif.Delivery.C59_waiting_is_served_partial",
    "Verif.Delivery.C59_stuck_violated"
   ],
   "note": "Holds for asynchronous services and workflows (C22_waiting_is_served). The cleanup of a continuous service drops the blocker of the active request, so the queue stays blocked for ever (witness proved for every continuation without pre-emption)."
  },
  {
   "property": "C60",
   "status": "proved",
   "theorems": [
    "Verif.Streams.C60_declared",
    "Verif.Streams.C60_typed"
   ],
   "note": "For side effects with the types that the compiler checks."
  },
  {
   "property": "C61",
   "status": "partial",
   "theorems": [
    "Verif.Streams.C61_partial",
    "Verif.Streams.C61_discover",
    "Verif.Streams.C61_dynamic_violated"
   ],
   "note": "Holds for filters without dynamically named streams. A dynamically named stream is registered under one type and looked up under another, so a service that offers it is not found (proved)."
  },
  {
   "property": "C62",
   "status": "partial",
   "theorems": [
    "Verif.Streams.C62_partial",
    "Verif.Streams.C62_violated",
    "Verif.Streams.C62_narrowing_violated"
   ],
   "note": "The code checks the opposite direction: every stream of the service must be present in the target pack. Witnesses for both consequences; proved is what the check does guarantee."
  },
  {
   "property": "C63",
   "status": "partial",
   "theorems": [
    "Verif.Streams.C63_partial",
    "Verif.Streams.C63_scope_violated",
    "Verif.Streams.C63_static_violated"
   ],
   "note": "Holds for anonymous and dynamically named workflow streams. Scope streams and statically named workflow streams look at an input storage of the wrong type: reachability is an error in every state and cleanup leaves the items (proved for all states)."
  },
  {
   "property": "C64",
   "status": "partial",
   "theorems": [
    "Verif.Inject.C64_partial",
    "Verif.Inject.C64_violated"
   ],
   "note": "Exact without disposals. False of the code when a service disposes of an injected request: the entry in InjectionStorage stays, so the injector is reported reachable until the session is cleaned up (proved for all continuations)."
  },
  {
   "property": "C65",
   "status": "partial",
   "theorems": [
    "Verif.Series.C65_violated",
    "Verif.Series.C65_reported_partial"
   ],
   "note": "False of the code: emit_broken knows no session and a step of a series has no scope, so only an unhandled error is recorded; for every continuation without a cancellation of that series the promise is told nothing and the entities stay. What holds: the break is reported as an error, changes nothing of the other steps, and a later cancellation ends the series and tells its promise."
  },
  {
   "property": "C66",
   "status": "proved",
   "theorems": [
    "Verif.Series.C66_ledger",
    "Verif.Series.C66_complete",
    "Verif.Series.C66_alive"
   ],
   "note": "For the streams of a series that was taken with Series::take. C66_complete is about the step right before the terminal, whose streams take() returns."
  },
  {
   "property": "C67",
   "status": "partial",
   "theorems": [
    "Verif.Series.C67_partial",
    "Verif.Series.C67_violated"
   ],
   "note": "Holds for promise, storage and event. False of the code for push: the terminal that pushes the response is not despawned (the condition is inverted), so the whole series stays."
  },
  {
   "property": "C68",
   "status": "partial",
   "theorems": [
    "Verif.Trim.C68_partial",
    "Verif.Trim.C68_violated"
   ],
   "note": "The answer looks at waiting inputs and at upstream only; a held message is not counted (witness proved)."
  },
  {
   "property": "C69",
   "status": "proved",
   "theorems": [
    "Verif.Diagram.C69_exactly",
    "Verif.Diagram.C69_once"
   ],
   "note": "For diagrams whose maps have distinct keys, as hash maps do. Section builders registered in Rust code are not modelled."
  },
  {
   "property": "C70",
   "status": "partial",
   "theorems": [
    "Verif.Diagram.C70_order_partial",
    "Verif.Diagram.C70_violated"
   ],
   "note": "Proved for diagrams of nodes, transforms and JSON buffers, for every order of the operations and of the outputs. In general false of the code: the type of an operation such as a fork is taken from the connection that comes first; witness of two orders, one builds and the other does not."
  },
  {
   "property": "C71",
   "status": "proved",
   "theorems": [
    "Verif.Diagram.C71_ends"
   ],
   "note": "The model recursion is bounded by MAX_ITERATIONS like the code; the theorem says that the additional fuel of the outer loop and of the validation never runs out. A template that contains a scope that uses the template is not refused and is unfolded until the limit of rounds is reached."
  },
  {
   "property": "C72",
   "status": "partial",
   "theorems": [
    "Verif.Diagram.C72_cancel_violated",
    "Verif.Diagram.C72_transform_violated",
    "Verif.Diagram.C72_error_violated",
    "Verif.Diagram.C72_root_partial"
   ],
   "note": "False of the code, proved for all diagrams: an operation inside of a section or a scope that names cancel cannot be built, nor a transform there without a target for its errors, nor one with a named target for its errors unless an operation happens to be at the doubly nested name. What holds: in a diagram of nodes, transforms and JSON buffers without sections and scopes, every target can be replaced by cancel."
  },
  {
   "property": "C73",
   "status": "partial",
   "theorems": [
    "Verif.Diagram.C73_partial",
    "Verif.Diagram.C73_start_partial",
    "Verif.Diagram.C73_scope_partial",
    "Verif.Diagram.C73_error_violated",
    "Verif.Diagram.C73_response_violated"
   ],
   "note": "Holds for all outputs of operations, the request and the response of scopes, unless they lead to the response or a stream of a scope. False of the code for converters: those for the response or a stream of a scope are created outside of the scope, and the errors of converters inside of a scope lead to the error target of the whole workflow."
  },
  {
   "property": "C74",
   "status": "partial",
   "theorems": [
    "Verif.Diagram.C74_violated",
    "Verif.Diagram.C74_through_partial",
    "Verif.Diagram.C74_exposed_partial"
   ],
   "note": "False of the code: the hints of an access are filed under the exposed name and never reach the buffer inside of the section, whose type stays unknown; witness proved, beside it the same access without a section builds. What holds: once the buffers are there, the exposed names lead to them, and joins, accesses and listeners are built through them as they are directly, except for the hints."
  },
  {
   "property": "C75",
   "status": "proved",
   "theorems": [
    "Verif.Diagram.C75_operation",
    "Verif.Diagram.C75_io",
    "Verif.Diagram.C75_scope"
   ],
   "note": "For the operations that are modelled (see DESIGN.md); types are compared by equality, as TypeInfo is."
  },
  {
   "property": "C76",
   "status": "proved",
   "theorems": [
    "Verif.Diagram.C76_buffers",
    "Verif.Diagram.C76_joins",
    "Verif.Diagram.C76_value"
   ],
   "note": "A layout is given by its hints (how the real layouts relate to theirs is C86 and C90). What a join then does is Refs and BufNet."
  },
  {
   "property": "C77",
   "status": "partial",
   "theorems": [
    "Verif.Diagram.C77_operation_partial",
    "Verif.Diagram.C77_start_partial",
    "Verif.Diagram.C77_scope_partial",
    "Verif.Diagram.C77_section_partial",
    "Verif.Diagram.C77_buffers_partial",
    "Verif.Diagram.C77_violated"
   ],
   "note": "Proved for the outputs of operations, the start of the diagram, the start and next of scopes, buffers, templates and the outputs of sections. False of the code for redirections that no output passes through: an unused output of a section can be connected to an operation that does not exist (C77_violated). The streams of scopes and the inputs of templates are such redirections too."
  },
  {
   "property": "C78",
   "status": "partial",
   "theorems": [
    "Verif.Flow.C78_no_hang_partial",
    "Verif.Flow.C78_rest_is_final",
    "Verif.Flow.C78_shared_buffer_violated",
    "Verif.Flow.C78_clone_violated",
    "Verif.Flow.C78_capacity_violated",
    "Verif.Flow.C78_inner_stream_violated",
    "Verif.Flow.C78_inner_cancel_violated",
    "Verif.Flow.C78_shared_counter_violated",
    "Verif.Flow.C78_drop_race_violated",
    "Verif.Flow.C78_two_values_violated",
    "Verif.Flow.C78_gated_join_violated",
    "Verif.Many.C78_every_session_partial"
   ],
   "note": "Proved, with listens, accesses, keys and static gates, for workflows whose joins pull from ungated buffers of their own with room for a value, whose accesses are for single buffers and whose inner scopes have no streams and are not cancelled, and for runs in which keys are not dropped unseen and joined buffers get one value at a time through a key. Each condition is needed: the other theorems are sessions that are left waiting for ever. Gates whose action comes with the message, collect, trim and injection are not part of this model. C78_every_session_partial is the same for any session of a workflow with many sessions."
  },
  {
   "property": "C79",
   "status": "partial",
   "theorems": [
    "Verif.Flow.C79_no_early_cancel_partial",
    "Verif.Flow.C79_start_partial",
    "Verif.Flow.C79_session_partial",
    "Verif.Flow.C79_join_cycle_violated",
    "Verif.Flow.C79_listen_cycle_violated",
    "Verif.Flow.C79_open_later_violated",
    "Verif.Flow.C79_gated_join_violated",
    "Verif.Many.C79_every_session_partial"
   ],
   "note": "Proved for workflows without a cycle that leads to a join of several buffers, whose gate operations only close and not the buffers of joins, in any state and with any use of keys. Each condition is needed: the other theorems are sessions that are cancelled although they would terminate, two of them as soon as they begin. C79_every_session_partial is the same for any session of a workflow with many sessions."
  },
  {
   "property": "C80",
   "status": "partial",
   "theorems": [
    "Verif.Flow.C80_request_partial",
    "Verif.Flow.C80_inner_violated",
    "Verif.Flow.C80_hang_violated",
    "Verif.Flow.C80_violated"
   ],
   "note": "Proved for requests from outside of workflows. False of every scope inside of a workflow: the cancellation is addressed to the inner session, which cannot receive it, and the workflow around it waits for ever (proved for all workflows and states)."
  },
  {
   "property": "C81",
   "status": "partial",
   "theorems": [
    "Verif.Wire.C81_wiring_partial",
    "Verif.Wire.C81_wiring_violated"
   ],
   "note": "Proved for every sequence of calls in which no stream pack has two streams of one type or name. With such a pack the claim is false: the second stream is handed out as an output and can be connected, but is sent nowhere, while the operation it was connected to counts on it. Commands are applied at once instead of queued."
  },
  {
   "property": "C82",
   "status": "partial",
   "theorems": [
    "Verif.Wire.C82_scopes_partial",
    "Verif.Wire.C82_no_crossing"
   ],
   "note": "Proved for the sequences of calls of C81; not examined for stream packs with two streams of one type or name."
  },
  {
   "property": "C83",
   "status": "partial",
   "theorems": [
    "Verif.Views.C83_keys_act_alike_partial",
    "Verif.Views.C83_keys_act_on_lists_partial",
    "Verif.Views.C83_keys_act_alike_violated"
   ],
   "note": "Proved for every history without a push as oldest through a JSON handle; together with C02 down to lists of messages. False of the code for that call: it pushes the message as the newest (witness proved). Serialisation is a parameter: a partial function in each direction, with no law assumed."
  },
  {
   "property": "C84",
   "status": "partial",
   "theorems": [
    "Verif.Views.C84_changes_notify_partial",
    "Verif.Views.C84_gate_opening_notifies_partial",
    "Verif.Views.C84_gate_effect",
    "Verif.Views.C84_push_any_violated",
    "Verif.Views.C84_world_access_violated"
   ],
   "note": "Proved for accesses by a system parameter without push_any and push_any_as_oldest, and for gates. False of the code otherwise: those two methods do not mark the handle, and the methods of World drop the SystemState that holds the notification without applying it (witnesses proved)."
  },
  {
   "property": "C85",
   "status": "partial",
   "theorems": [
    "Verif.Refs.C85_joins_take_the_oldest_partial",
    "Verif.Refs.C85_violated_by_json_cloning",
    "Verif.Refs.C85_violated_by_failed_serialisation",
    "Verif.Refs.C85_violated_by_unregistered_clones"
   ],
   "note": "Proved for all references but: JSON references that clone from a buffer with several messages (they clone the newest) or pull a message that cannot be serialised (it is lost), erased references made after JsonBuffer::join_by_cloning (the type is not checked to be cloneable), and FetchFromBuffer::try_from with the wrong type (C87). The first three are proved to violate the claim."
  },
  {
   "property": "C86",
   "status": "partial",
   "theorems": [
    "Verif.Refs.C86_layouts_accept_what_they_need_partial",
    "Verif.Refs.C86_maps_and_vectors_leave_nothing_out",
    "Verif.Refs.C86_violated",
    "Verif.Refs.C86_violated_by_forbidden_buffers"
   ],
   "note": "Proved for all layouts except that buffers with other identifiers are accepted by single references, structs and maps of names; in full for maps, JSON maps of identifiers and vectors. The forbidden identifiers are recorded and then ignored by as_result (witness proved)."
  },
  {
   "property": "C87",
   "status": "partial",
   "theorems": [
    "Verif.Refs.C87_references_keep_their_buffer_partial",
    "Verif.Refs.C87_downcasts_succeed",
    "Verif.Refs.C87_wrong_type_joins_nothing",
    "Verif.Refs.C87_violated"
   ],
   "note": "Downcasts proved in full. Conversions proved unless FetchFromBuffer::try_from names another type: if the buffer is to be pulled it does not compare the types, and every join through the result is broken (proved)."
  },
  {
   "property": "C88",
   "status": "partial",
   "theorems": [
    "Verif.Refs.C88_joins_take_as_asked_partial",
    "Verif.Refs.C88_default_kinds_keep",
    "Verif.Refs.C88_violated"
   ],
   "note": "Proved for maps, JSON and structs, and for vectors of buffers that are all to be pulled; JSON references that clone only from buffers with one message (C85). False of Vec and SmallVec: they use Buffer, which pulls from the buffers that were to be cloned (witness proved)."
  },
  {
   "property": "C89",
   "status": "proved",
   "theorems": [
    "Verif.Refs.C89_json_join"
   ],
   "note": "The identifiers are distinct because they are the keys of a hash map."
  },
  {
   "property": "C90",
   "status": "partial",
   "theorems": [
    "Verif.Refs.C90_hints_tell_what_is_accepted_partial",
    "Verif.Refs.C90_accepted_maps_have_hints",
    "Verif.Refs.C90_violated"
   ],
   "note": "The second half is proved in full. The first is proved unless a vector is given other identifiers than 0 to n-1: it gives hints for any indices and ignores names, though the conversion then fails (witness proved). Types that are to be cloned must be registered as cloneable: hints do not speak of that."
  },
  {
   "property": "C91",
   "status": "partial",
   "theorems": [
    "Verif.Gone.C91_account",
    "Verif.Gone.C91_told_partial",
    "Verif.Gone.C91_blocking",
    "Verif.Gone.C91_nothing_starts",
    "Verif.Gone.C91_flush_disposes",
    "Verif.Gone.C91_execution_disposes",
    "Verif.Gone.C91_series_never_told",
    "Verif.Gone.C91_never_panics",
    "Verif.Gone.C91_queued_violated",
    "Verif.Gone.C91_workflow_violated",
    "Verif.Gone.C91_continuous_violated",
    "Verif.Gone.C91_series_violated",
    "Verif.Gone.C91_full_violated"
   ],
   "note": "An exact account is proved for requests made in workflows: all are answered, withdrawn or told except those held by the service itself when it is removed. False for those (waiting in the Delivery of the service, being carried out by a continuous service or by the scope of a workflow) and for requests in a series, where the disposal has no effect (witnesses proved)."
  },
  {
   "property": "C92",
   "status": "partial",
   "theorems": [
    "Verif.Gone.Dispatch.C92_disposal_partial",
    "Verif.Gone.Dispatch.C92_account",
    "Verif.Gone.Dispatch.C92_told",
    "Verif.Gone.Dispatch.C92_violated",
    "Verif.Gone.Dispatch.C92_full_violated"
   ],
   "note": "The second half is proved in full. The first is proved unless a request for a removed service is dispatched inside of one for another service: dispatch_service then disposes for the provider of the outer request (witness proved)."
  },
  {
   "property": "C93",
   "status": "proved",
   "theorems": [
    "Verif.Convert.C93_accepts",
    "Verif.Convert.C93_delivers",
    "Verif.Convert.C93_unconnected",
    "Verif.Convert.C93_order"
   ],
   "note": "What the user's types do when they are serialised, deserialised or printed is a parameter. The model ends where the error output of a converter is given to the implicit error target; that connection is made by the loop modelled in Diagram (C70 and following)."
  },
  {
   "property": "C94",
   "status": "proved",
   "theorems": [
    "Verif.Chain.C94_outcome",
    "Verif.Chain.C94_only",
    "Verif.Chain.C94_ends",
    "Verif.Chain.C94_continues"
   ],
   "note": "For the combinators without buffers, gates, collect, trim, split, scopes, streams or injection. That a connection made by Connect is followed is C81. What a scope does with other messages once it is cancelled is not part of this model (Scope)."
  },
  {
   "property": "C95",
   "status": "proved",
   "theorems": [
    "Verif.Diagram.C95_builds"
   ],
   "note": "The names of operations and of streams are distinct, as keys of hash maps, and MAX_ITERATIONS is at least 4 (it is 10000). Operations that infer types, sections, scopes and streams out are not covered; for them see C70, C75 to C77."
  },
  {
   "property": "C96",
   "status": "partial",
   "theorems": [
    "Verif.Register.C96_sound",
    "Verif.Register.C96_others",
    "Verif.Register.C96_exact_partial",
    "Verif.Register.C96_order_partial",
    "Verif.Register.C96_monotone",
    "Verif.Register.C96_violated"
   ],
   "note": "Proved in full unless a type is registered as a result both minimally and in full. False then: if the minimal registration comes first, the other one has no effect on the variants (witness proved)."
  },
  {
   "property": "C97",
   "status": "proved",
   "theorems": [
    "Verif.Register.C97_types"
   ],
   "note": "A function of the registry is given by the type it was instantiated with. The entry of the type of the Ok variant that RegisterForkResult::on_register would create under the type of the result is never created, since the public methods insert the right one before."
  },
  {
   "property": "C98",
   "status": "partial",
   "theorems": [
    "Verif.Register.C98_exact",
    "Verif.Register.C98_json_partial",
    "Verif.Register.C98_clone",
    "Verif.Register.C98_violated"
   ],
   "note": "JSON buffers: exactly the types for which one registration enables both at once; hence only if both are enabled, but not if they are enabled by two registrations (witness proved)."
  },
  {
   "property": "C99",
   "status": "proved",
   "theorems": [
    "Verif.Register.C99_nodes"
   ],
   "note": "Builders of sections, which are kept in the same way, are not modelled."
  },
  {
   "property": "C100",
   "status": "partial",
   "theorems": [
    "Verif.Sched.C100_deferred_partial",
    "Verif.Sched.C100_woken_partial",
    "Verif.Sched.C100_response_last_partial",
    "Verif.Sched.C100_other_sender_false",
    "Verif.Sched.C100_withdrawn_false",
    "Verif.Sched.C100_limit_false"
   ],
   "note": "Proved without a channel_received_limit: in full for tasks that finish when they are woken; for tasks that finish when polled from the queue unless another operation sends to the same target, or an input was withdrawn from it, before the channel is read. False in those cases and with a limit: the deferred response is an ordinary input of the target, which any execution takes (witnesses proved)."
  },
  {
   "property": "C101",
   "status": "proved",
   "theorems": [
    "Verif.Trace.C101_stack",
    "Verif.Trace.C101_unique",
    "Verif.Trace.C101_nested"
   ],
   "note": "For every history of the operations that change parents of sessions."
  },
  {
   "property": "C102",
   "status": "partial",
   "theorems": [
    "Verif.Trace.C102_event_partial",
    "Verif.Trace.C102_silent",
    "Verif.Trace.C102_run_partial"
   ],
   "note": "Proved for the inputs that are taken when an operation is executed, unless a message cannot be serialised (then no event is sent and the operation is broken, C103_violated). Inputs taken elsewhere (dispose_for_despawned_service) are not modelled."
  },
  {
   "property": "C103",
   "status": "partial",
   "theorems": [
    "Verif.Trace.C103_transparent_partial",
    "Verif.Trace.C103_violated"
   ],
   "note": "Proved for runs in which no message fails to be serialised for a trace; otherwise false: the input is lost and the operation broken, although the documentation says that the message is just not included (witness proved)."
  },
  {
   "property": "C104",
   "status": "partial",
   "theorems": [
    "Verif.Residue.C104_end_partial",
    "Verif.Residue.C104_bare_partial",
    "Verif.Residue.C104_others",
    "Verif.Residue.C104_trimmed",
    "Verif.Residue.C104_forgotten",
    "Verif.Residue.C104_gates",
    "Verif.Residue.C104_helpers",
    "Verif.Residue.C104_grows"
   ],
   "note": "Proved for everything but the disposals at blocking and async maps, splits, listeners and accesses, the gate entries of buffers and the helper entities of trims: these are never removed, so that what is left of past sessions grows without bound (proved). What asynchronous tasks, queues of services and scopes keep is in other areas."
  },
  {
   "property": "C105",
   "status": "partial",
   "theorems": [
    "Verif.Residue.C105_listing_partial",
    "Verif.Residue.C105_exact_partial",
    "Verif.Residue.C105_trim",
    "Verif.Residue.C105_violated"
   ],
   "note": "Proved for everything but the disposals of injected requests: they are not listed while the request is running and lost when a trim cleans the injection (witness proved)."
  },
  {
   "property": "C106",
   "status": "proved",
   "theorems": [
    "Verif.Diagram.C106_stuck"
   ],
   "note": ""
  },
  {
   "property": "C107",
   "status": "proved",
   "theorems": [
    "Verif.Zenoh.Publish.C107_order",
    "Verif.Zenoh.Publish.C107_strict_all",
    "Verif.Zenoh.Publish.C107_once",
    "Verif.Zenoh.Publish.C107_all",
    "Verif.Zenoh.Publish.C107_apart"
   ],
   "note": ""
  },
  {
   "property": "C108",
   "status": "proved",
   "theorems": [
    "Verif.Zenoh.Publish.C108_once",
    "Verif.Zenoh.Publish.C108_all",
    "Verif.Zenoh.Publish.C108_right",
    "Verif.Zenoh.Publish.C108_success"
   ],
   "note": ""
  },
  {
   "property": "C109",
   "status": "partial",
   "theorems": [
    "Verif.Zenoh.Config.C109_querier",
    "Verif.Zenoh.Config.C109_subscription_settings",
    "Verif.Zenoh.Config.C109_subscription",
    "Verif.Zenoh.Config.C109_publisher_partial",
    "Verif.Zenoh.Config.C109_publisher_violated",
    "Verif.Zenoh.Config.C109_heartbeat_violated"
   ],
   "note": "Proved for queriers and subscriptions. Of a publisher the reliability and locality are never used, priority, congestion control and express only reach the replies of the cache, and the two kinds of heartbeat are exchanged (witnesses proved)."
  },
  {
   "property": "C110",
   "status": "partial",
   "theorems": [
    "Verif.Zenoh.Config.C110_single_partial",
    "Verif.Zenoh.Config.C110_latest",
    "Verif.Zenoh.Config.C110_registries_violated",
    "Verif.Zenoh.Config.C110_worlds_violated"
   ],
   "note": "Proved for one registry and one world. With two registries in a world a second session is opened, and a second world of a registry never gets one (witnesses proved)."
  },
  {
   "property": "C111",
   "status": "partial",
   "theorems": [
    "Verif.Zenoh.Nodes.C111_one",
    "Verif.Zenoh.Nodes.C111_answer",
    "Verif.Zenoh.Nodes.C111_items",
    "Verif.Zenoh.Nodes.C111_all",
    "Verif.Zenoh.Nodes.C111_ends",
    "Verif.Zenoh.Nodes.C111_cancel_partial",
    "Verif.Zenoh.Nodes.C111_hang",
    "Verif.Zenoh.Nodes.C111_hang_violated"
   ],
   "note": "Proved but for the cancellation when zenoh has closed the channel: then the loop goes round without waiting, the task never returns from its poll and no cancellation is seen (proved)."
  },
  {
   "property": "C112",
   "status": "proved",
   "theorems": [
    "Verif.Zenoh.Nodes.C112_items",
    "Verif.Zenoh.Nodes.C112_result",
    "Verif.Zenoh.Nodes.C112_all",
    "Verif.Zenoh.Nodes.C112_cancel"
   ],
   "note": ""
  },
  {
   "property": "C113",
   "status": "partial",
   "theorems": [
    "Verif.Grpc.C113_out",
    "Verif.Grpc.C113_result",
    "Verif.Grpc.C113_poll",
    "Verif.Grpc.C113_canceller",
    "Verif.Grpc.C113_cancel",
    "Verif.Grpc.C113_timeout_partial",
    "Verif.Grpc.C113_unlimited",
    "Verif.Grpc.C113_timeout_violated"
   ],
   "note": "Proved but for the timeout while the connection is made and while the client is waited for the first time: these waits are not under the timeout and there is no canceller yet (proved)."
  },
  {
   "property": "C114",
   "status": "partial",
   "theorems": [
    "Verif.Scope.C114_answered_partial",
    "Verif.Scope.C114_nothing",
    "Verif.Scope.C114_two_violated",
    "Verif.Scope.C114_later_violated",
    "Verif.Scope.C114_running_violated",
    "Verif.Scope.C114_terminated_violated",
    "Verif.Scope.C114_second_violated"
   ],
   "note": "Proved for a scope that can be interrupted and a cleanup id that is used once, with one session of that parent that is on its way, or any number of them if the operations answer at once. With two sessions whose operations answer later, or one that has terminated and is being cleaned up, the parent is never answered; while cleanup workflows of a terminated session run, and for a second request, it is answered too early (witnesses proved). Scopes that cannot be interrupted: C29."
  },
  {
   "property": "C115",
   "status": "partial",
   "theorems": [
    "Verif.File.C115_saved_partial",
    "Verif.File.C115_loaded",
    "Verif.File.C115_text_partial",
    "Verif.File.C115_builtin_violated",
    "Verif.File.C115_depth_violated",
    "Verif.File.C115_reload_violated"
   ],
   "note": "In full for what was read (C115_loaded, as values). For diagrams that are built in code it is proved unless a target is an operation called like a builtin target in a namespace called builtin, which is read as the builtin target. Through text it is proved for less than 128 levels; scopes nested 63 deep are written but cannot be read (witnesses proved)."
  },
  {
   "property": "C116",
   "status": "proved",
   "theorems": [
    "Verif.File.C116_diagram",
    "Verif.File.C116_operation",
    "Verif.File.C116_operation_diagram",
    "Verif.File.C116_required",
    "Verif.File.C116_untyped",
    "Verif.File.C116_type",
    "Verif.File.C116_misspelt_violated"
   ],
   "note": "C116_misspelt_violated shows that misspelt optional keys go unnoticed. Entries of templates and targets are not covered."
  },
  {
   "property": "C117",
   "status": "proved",
   "theorems": [
    "Verif.Many.C117_sessions_apart",
    "Verif.Many.C117_not_held_up",
    "Verif.Many.C117_same_futures",
    "Verif.Many.C117_missing_target_ends_all"
   ],
   "note": "For workflows whose connections exist; an operation that sends to a despawned entity cancels every session (C117_missing_target_ends_all). Services with serial delivery and continuous services tie sessions together on purpose and are not part of this model."
  },
  {
   "property": "C118",
   "status": "partial",
   "theorems": [
    "Verif.Server.C118_own_answer",
    "Verif.Server.C118_final",
    "Verif.Server.C118_order",
    "Verif.Server.C118_turn",
    "Verif.Server.C118_ready",
    "Verif.Server.C118_down_answers",
    "Verif.Server.C118_timeout_violated",
    "Verif.Server.C118_waits_on",
    "Verif.Server.C118_panic_violated",
    "Verif.Server.C118_down_violated"
   ],
   "note": "What is said outside the parenthesis is proved in full. The parenthesis is false: response_timeout is stored and never read, so a client waits for as long as its workflow does (C118_timeout_violated); a node builder that panics ends the thread of the app, so that other requests and all later ones get 500 (C118_panic_violated, C118_down_violated)."
  },
  {
   "property": "C119",
   "status": "partial",
   "theorems": [
    "Verif.Server.C119_removed_partial",
    "Verif.Server.C119_not_early",
    "Verif.Server.C119_disconnect_violated",
    "Verif.Server.C119_refused_violated"
   ],
   "note": "Proved without disconnects and erroneous diagrams. With them it is false: the handler that would send the workflow to the despawn channel is dropped when the client disconnects (C119_disconnect_violated), and spawn_workflow leaves what it has spawned when the diagram turns out to have an error (C119_refused_violated); both stay for as long as the app runs."
  },
  {
   "property": "C120",
   "status": "partial",
   "theorems": [
    "Verif.Editor.C120_round_trip_partial",
    "Verif.Editor.C120_settings_violated",
    "Verif.Editor.C120_section_input_violated",
    "Verif.Editor.C120_section_start_violated",
    "Verif.Editor.C120_section_buffer_violated",
    "Verif.Editor.C120_cancel_violated",
    "Verif.Editor.C120_unzip_violated",
    "Verif.Editor.C120_split_violated",
    "Verif.Editor.C120_fork_violated",
    "Verif.Editor.C120_clone_violated",
    "Verif.Editor.C120_clone_name_violated",
    "Verif.Editor.C120_streams_violated"
   ],
   "note": "Proved for every Editable diagram, of any size and depth: targets are operations next to it or terminate (dispose where there is exactly one target), streams only of nodes whose builder has some in the registry, no clone by key. The rest is false of the code, one theorem per cause: default_trace and on_implicit_error are dropped (for all diagrams); named inputs of sections, cancel, dispose in lists, repeated targets of fork_clone, clone of joins, streams of scopes."
  },
  {
   "property": "C121",
   "status": "partial",
   "theorems": [
    "Verif.Editor.C121_drawn_only",
    "Verif.Editor.C121_only_drawn",
    "Verif.Editor.C121_operations",
    "Verif.Editor.C121_every_edge_partial",
    "Verif.Editor.C121_reopen_partial",
    "Verif.Editor.C121_same_field_violated",
    "Verif.Editor.C121_scope_stream_violated",
    "Verif.Editor.C121_namespaces_violated",
    "Verif.Editor.C121_section_violated",
    "Verif.Editor.C121_holes_violated"
   ],
   "note": "That nothing is left from before, that every connection in the export is drawn, and that the operations are the nodes with their settings is proved for every graph that can be exported (nodes with distinct places, in scopes). That every edge is exported is proved for graphs in which no two edges want the same field, except for streams that the registry does not know; that the export can be opened again, for edges that stay in their namespaces, without named inputs of sections and without holes in arrays. The restrictions are needed: one theorem for each shows what goes wrong."
  },
  {
   "property": "C122",
   "status": "partial",
   "theorems": [
    "Verif.Editor.C122_sound_partial",
    "Verif.Editor.C122_delete",
    "Verif.Editor.C122_connect",
    "Verif.Editor.C122_untouched",
    "Verif.Editor.C122_export_partial",
    "Verif.Editor.C122_drawn",
    "Verif.Editor.C122_every_edge_partial",
    "Verif.Editor.C122_rename_scope_violated",
    "Verif.Editor.C122_rename_taken_violated",
    "Verif.Editor.C122_buffer_section_violated",
    "Verif.Editor.C122_mixed_buffers_violated",
    "Verif.Editor.C122_same_output_violated"
   ],
   "note": "What removing, connecting and the other edits change is proved for all diagrams. That every edit keeps the diagram sound is proved for all sequences of edits, except renaming to a name that is taken and renaming a scope with something inside, which break it. That the result can be exported is proved unless a buffer is connected to a section or an operation has buffers by index and by key; that every edge is then exported, unless two edges are for the same output or slot. Theorems on concrete edits show that each restriction is needed. New ids and names are assumed to be new."
  },
  {
   "property": "C123",
   "status": "partial",
   "theorems": [
    "Verif.Values.C123_sound",
    "Verif.Values.C123_messages",
    "Verif.Values.C123_determined",
    "Verif.Values.C123_outcome",
    "Verif.Values.C123_refines",
    "Verif.Values.C123_not_cancelled_partial",
    "Verif.Values.C123_complete_partial",
    "Verif.Values.C123_possible_partial",
    "Verif.Values.C123_responds_partial",
    "Verif.Values.C123_partial",
    "Verif.Values.C123_shared_buffer_violated",
    "Verif.Values.C123_loop_violated",
    "Verif.Values.C123_replaced_violated"
   ],
   "note": "That only computed values are responded and that executions agree is proved for all workflows of the model and all executions, including those that drop tasks. That a computed response is given is proved when no task is dropped, each joined buffer gets one value and is pulled by one join, buffers have room and no loop leads into a join of several buffers; theorems on concrete workflows show that the code breaks the claim otherwise. Not in the model: inner scopes other than as nodes, keys and gates of buffers, collect, injection, user code that keeps a state."
  },
  {
   "property": "C124",
   "status": "partial",
   "theorems": [
    "Verif.Values.C124_settles",
    "Verif.Values.C124_ends",
    "Verif.Values.C124_responds",
    "Verif.Values.C124_partial",
    "Verif.Values.C124_cancelled_partial",
    "Verif.Values.C124_shared_buffer_violated"
   ],
   "note": "That everything comes to rest, and that a workflow without races responds with what its graph computes, is proved for all workflows without loops and all schedules. That it ends rather than rests without an answer is proved when joins pull from buffers of their own that have room; a theorem on a concrete workflow shows that it is false of joins that share a buffer. The model is that of C123."
  },
  {
   "property": "C125",
   "status": "partial",
   "theorems": [
    "Verif.Poll.C125_ends",
    "Verif.Poll.C125_bound_partial",
    "Verif.Poll.C125_order",
    "Verif.Poll.C125_serves",
    "Verif.Poll.C125_reaches",
    "Verif.Poll.C125_unlimited",
    "Verif.Poll.C125_self_wake",
    "Verif.Poll.C125_limit_violated"
   ],
   "note": "Everything but the number of futures: the limit is applied to the two channels separately and checked after a future was polled, so that up to twice the limit are polled, and two with the limit 0. The bound that holds is proved, and a theorem on concrete futures shows that the documented one is false."
  },
  {
   "property": "C126",
   "status": "partial",
   "theorems": [
    "Verif.Editor.C126_round_trip_partial",
    "Verif.Editor.C126_connect_input",
    "Verif.Editor.C126_connect_who",
    "Verif.Editor.C126_connect_buffer_violated",
    "Verif.Editor.C126_violated"
   ],
   "note": "The round trip is proved for the templates that the editor can keep; it is false of templates that pass an input on to an inner section, which is what remapping is for, and of operations that lead to the end of the workflow. Connections of inputs are saved; once an edge is drawn from a buffer the template cannot be saved, which is proved for all graphs."
  },
  {
   "property": "C127",
   "status": "proved",
   "theorems": [
    "Verif.Editor.C127_unique",
    "Verif.Editor.C127_add_pin",
    "Verif.Editor.C127_add_output",
    "Verif.Editor.C127_sound"
   ],
   "note": "For all names, and for all graphs of templates."
  },
  {
   "property": "C128",
   "status": "partial",
   "theorems": [
    "Verif.Editor.C128_can_be_drawn_partial",
    "Verif.Editor.C128_streams_violated",
    "Verif.Editor.C128_unzip_violated",
    "Verif.Editor.C128_violated"
   ],
   "note": "Proved for all diagrams that the editor keeps in which no node has two streams, no unzip has two outputs, no two connections lead from the same output to the same target, and none leads to a section or an operation that takes only buffers. It is false of nodes with two streams and of an unzip with two outputs: no sequence of edits makes one."
  },
  {
   "property": "C129",
   "status": "partial",
   "theorems": [
    "Verif.Editor.C129_fields_partial",
    "Verif.Editor.C129_unzip_violated",
    "Verif.Editor.C129_fetch_violated",
    "Verif.Editor.C129_input_violated",
    "Verif.Editor.C129_violated"
   ],
   "note": "Proved for all fields but the index of an unzip, which does nothing; and but for two things that are lost: that a join clones a buffer, when another key or index is entered, and the input of a section, when another type is chosen."
  },
  {
   "property": "C130",
   "status": "partial",
   "theorems": [
    "Verif.Editor.C130_add",
    "Verif.Editor.C130_delete",
    "Verif.Editor.C130_rename_partial",
    "Verif.Editor.C130_rename_steps_partial",
    "Verif.Editor.C130_save",
    "Verif.Editor.C130_taken_violated",
    "Verif.Editor.C130_sections_violated",
    "Verif.Editor.C130_violated"
   ],
   "note": "Proved for adding, deleting, editing and saving, and for renaming to a name that is free. Renaming to a name that is taken loses one of the two templates, and sections keep the old name of a template that is renamed."
  },
  {
   "property": "C131",
   "status": "partial",
   "theorems": [
    "Verif.Editor.C131_layout_partial",
    "Verif.Editor.C131_nested_violated",
    "Verif.Editor.C131_start_violated",
    "Verif.Editor.C131_between_violated",
    "Verif.Editor.C131_violated"
   ],
   "note": "Proved for all diagrams that can be drawn in which no scope is in another and none has lost its start or end, with connections between two scopes left out of what the library is told. With a scope in a scope the layout always throws an error, and so it does with a connection to a scope whose start was removed. The changes are applied as when a file is loaded; for the button see C132. The library (dagre) is an arbitrary function."
  },
  {
   "property": "C132",
   "status": "partial",
   "theorems": [
    "Verif.Editor.C132_others_stay",
    "Verif.Editor.C132_moved_partial",
    "Verif.Editor.C132_box_partial",
    "Verif.Editor.C132_room_partial",
    "Verif.Editor.C132_button_partial",
    "Verif.Editor.C132_moved_violated",
    "Verif.Editor.C132_box_violated",
    "Verif.Editor.C132_button_violated",
    "Verif.Editor.C132_violated"
   ],
   "note": "Proved for every move in every diagram that can be drawn, with any nesting: everything but the moved node and the scope stays in place on the screen, and is in the box up to the margin, in which there is room for the moved node at the place where it was put. The moved node is where it was put exactly when the scope did not have to move; otherwise it is off by as much. After moves within the threshold a node can stick out of the box. The button does what the layout says without scopes; with scopes, changes that follow from the old positions overwrite those of the layout. Each of these is shown with a witness. Coordinates are whole numbers."
  },
  {
   "property": "C133",
   "status": "partial",
   "theorems": [
    "Verif.Again.C133_service_partial",
    "Verif.Again.C133_no_panic_partial",
    "Verif.Again.C133_answers",
    "Verif.Again.C133_map",
    "Verif.Again.C133_callback",
    "Verif.Again.C133_kept_violated",
    "Verif.Again.C133_removed_violated",
    "Verif.Again.C133_violated"
   ],
   "note": "Proved for maps and callbacks. Of services it is proved for all runs in which no system keeps a clone of a stream buffer that it was given or removes only the component that it is in; that nothing panics needs only the first. If one keeps a clone, which the types allow, that request is reported as broken but the system is not put back, and every later request to the service panics. If only the component is removed, every request is lost without a disposal. Requests that are made while another one is served are C25 and C50."
  }
 ]
}