/-
Model of the flush loop that drives every workflow.

Sources: /repo/src/flush.rs (flush_execution_impl, garbage_cleanup,
collect_from_channels) and /repo/src/operation.rs (OperationRoster).

The flush is written as a machine that performs one call-out per step, so that
what other threads and other Bevy systems do can be interleaved anywhere. What a
call-out (an operation, a cancellation, a channel item, …) does to the world is
an arbitrary parameter `Prog`.
-/
namespace Verif.Flush

/-- The lists of an `OperationRoster`, src/operation.rs:212-233. -/
inductive Kind where
  | queue | awake | deferred | cancel | unblock | disposed | cleanup | despawn
  deriving DecidableEq, Repr

/-- `OperationRoster`, src/operation.rs:212-233. The payloads (`Entity`, `Cancel`,
`Blocker`, `DisposalNotice`, `Cleanup`) are all elements of one type `E`. -/
structure Roster (E : Type) where
  queue : List E := []
  awake : List E := []
  deferred : List E := []
  cancel : List E := []
  unblock : List E := []
  disposed : List E := []
  cleanup : List E := []
  despawn : List E := []
  deriving DecidableEq, Repr

variable {W E : Type}

namespace Roster

def get (r : Roster E) : Kind → List E
  | .queue => r.queue
  | .awake => r.awake
  | .deferred => r.deferred
  | .cancel => r.cancel
  | .unblock => r.unblock
  | .disposed => r.disposed
  | .cleanup => r.cleanup
  | .despawn => r.despawn

/-- `OperationRoster::{queue, awake, defer, cancel, unblock, disposed,
cleanup_finished, defer_despawn}`, src/operation.rs:240-274: push at the back. -/
def push (r : Roster E) (k : Kind) (e : E) : Roster E :=
  match k with
  | .queue => { r with queue := r.queue ++ [e] }
  | .awake => { r with awake := r.awake ++ [e] }
  | .deferred => { r with deferred := r.deferred ++ [e] }
  | .cancel => { r with cancel := r.cancel ++ [e] }
  | .unblock => { r with unblock := r.unblock ++ [e] }
  | .disposed => { r with disposed := r.disposed ++ [e] }
  | .cleanup => { r with cleanup := r.cleanup ++ [e] }
  | .despawn => { r with despawn := r.despawn ++ [e] }

/-- `OperationRoster::is_empty`, src/operation.rs:276-285. -/
def isEmpty (r : Roster E) : Bool :=
  r.queue.isEmpty && r.awake.isEmpty && r.deferred.isEmpty && r.cancel.isEmpty &&
    r.unblock.isEmpty && r.disposed.isEmpty && r.cleanup.isEmpty && r.despawn.isEmpty

/-- `OperationRoster::append`, src/operation.rs:287-298 (`other` is left empty). -/
def append (r other : Roster E) : Roster E :=
  { queue := r.queue ++ other.queue
    awake := r.awake ++ other.awake
    deferred := r.deferred ++ other.deferred
    cancel := r.cancel ++ other.cancel
    unblock := r.unblock ++ other.unblock
    disposed := r.disposed ++ other.disposed
    cleanup := r.cleanup ++ other.cleanup
    despawn := r.despawn ++ other.despawn }

/-- `OperationRoster::purge`, src/operation.rs:302-305. -/
def purge [DecidableEq E] (r : Roster E) (e : E) : Roster E :=
  { r with
    queue := r.queue.filter fun x => decide (x ≠ e)
    deferred := r.deferred.filter fun x => decide (x ≠ e) }

/-- `OperationRoster::process_deferals`, src/operation.rs:308-312. -/
def processDeferals (r : Roster E) : Roster E :=
  { r with queue := r.queue ++ r.deferred, deferred := [] }

end Roster

/-- `FlushParameters`, src/flush.rs:45-72 (`single_threaded_poll_limit` belongs to
the optional executor, which is not modelled). -/
structure Params where
  loopLimit : Option Nat
  channelLimit : Option Nat
  deriving DecidableEq, Repr

/-- What a call-out asks for. `put`: into the running roster; `later`: into the
`DeferredRoster` resource; `purge`: `roster.purge`; `chan`: an item sent on the
async channel; `wake`: an entry of the `WakeQueue`. -/
inductive Eff (E : Type) where
  | put (k : Kind) (e : E)
  | later (k : Kind) (e : E)
  | purge (e : E)
  | chan (e : E)
  | wake (e : E)
  deriving DecidableEq, Repr

/-- The call-outs of a flush: an item of the async channel
(src/flush.rs:196), an entry of a roster list (execute_operation, awaken_task,
cancel.trigger, serve_next, validate, cleanup.trigger, despawn), the handling of
new and removed services (src/flush.rs:214-239) and of unused and dropped series
targets (src/flush.rs:251-281). -/
inductive Call (E : Type) where
  | item (e : E)
  | entry (k : Kind) (e : E)
  | services
  | targets
  deriving DecidableEq, Repr

/-- An arbitrary application: how each call-out changes the world and what it
asks for, and the flush parameters currently stored in the world. -/
structure Prog (W E : Type) where
  params : W → Params
  call : Call E → W → W × List (Eff E)

/-- Where the machine stands in src/flush.rs. -/
inductive Phase where
  /-- no flush running -/
  | idle
  /-- the channel loop, src/flush.rs:191-210 -/
  | recv
  /-- src/flush.rs:212-239 -/
  | services
  /-- src/flush.rs:241-249 -/
  | merge
  /-- src/flush.rs:251-281 -/
  | targets
  /-- src/flush.rs:283-322 -/
  | dispose
  /-- the loop condition, src/flush.rs:99 -/
  | top
  /-- src/flush.rs:100-104 -/
  | despawn
  /-- src/flush.rs:106-128 -/
  | limit
  /-- first loop of `garbage_cleanup`, then continue with the given phase -/
  | cleanups (ret : Phase)
  /-- second loop of `garbage_cleanup` -/
  | cancels (ret : Phase)
  /-- src/flush.rs:132-136 -/
  | unblock
  /-- src/flush.rs:138-144 -/
  | queue
  /-- src/flush.rs:145-157 -/
  | queueCheck
  /-- src/flush.rs:160-167 -/
  | awake
  deriving DecidableEq, Repr

structure St (W E : Type) where
  world : W
  /-- the roster of the running flush (a local variable in the code) -/
  roster : Roster E
  /-- the `DeferredRoster` resource, src/flush.rs:393-396 -/
  later : Roster E
  /-- pending items of the async channel -/
  chan : List E
  /-- pending entries of the wake queue -/
  wake : List E
  loopCount : Nat
  received : Nat
  params : Params
  phase : Phase

/-- History of a run (ghost; nothing in the machine reads it). -/
inductive Hist (E : Type) where
  /-- a new entry was asked for, for list `k` -/
  | new (k : Kind) (e : E)
  /-- an entry was appended to list `k` of the running roster -/
  | entered (k : Kind) (e : E)
  /-- an entry of list `k` was taken from the running roster and executed -/
  | ran (k : Kind) (e : E)
  /-- an entry of list `k` of the running roster was moved to the `DeferredRoster`
  because of the loop limit -/
  | kept (k : Kind) (e : E)
  /-- an entry was put in list `k` of the `DeferredRoster` by somebody -/
  | stored (k : Kind) (e : E)
  /-- an entry of list `k` of the `DeferredRoster` was moved to the running roster -/
  | merged (k : Kind) (e : E)
  /-- an entry of the deferred queue became an entry of the queue -/
  | undeferred (e : E)
  /-- entries of `e` were purged from the queues of the running roster -/
  | purged (e : E)
  /-- an item of the async channel was received -/
  | received (e : E)
  /-- a flush ended -/
  | ended
  deriving DecidableEq, Repr

variable [DecidableEq E]

/-- Apply what a call-out asked for. -/
def applyEff (s : St W E) : Eff E → St W E × List (Hist E)
  | .put k e => ({ s with roster := s.roster.push k e }, [.new k e, .entered k e])
  | .later k e => ({ s with later := s.later.push k e }, [.new k e, .stored k e])
  | .purge e => ({ s with roster := s.roster.purge e }, [.purged e])
  | .chan e => ({ s with chan := s.chan ++ [e] }, [])
  | .wake e => ({ s with wake := s.wake ++ [e] }, [])

def applyEffs (s : St W E) : List (Eff E) → St W E × List (Hist E)
  | [] => (s, [])
  | f :: fs =>
    let r := applyEff s f
    let r' := applyEffs r.1 fs
    (r'.1, r.2 ++ r'.2)

/-- One call-out: the world changes, then its requests are applied. -/
def perform (P : Prog W E) (c : Call E) (s : St W E) : St W E × List (Hist E) :=
  let r := P.call c s.world
  applyEffs { s with world := r.1 } r.2

/-- Is the optional limit reached? `limit <= count` in the code. -/
def reached : Option Nat → Nat → Bool
  | none, _ => false
  | some l, n => decide (l ≤ n)

/-- Run a step that took an entry `e` of list `k`, and go to `next`. -/
def runEntry (P : Prog W E) (k : Kind) (e : E) (next : Phase) (s : St W E) :
    St W E × List (Hist E) :=
  let r := perform P (.entry k e) s
  ({ r.1 with phase := next }, .ran k e :: r.2)

/-- All entries of a roster, as history entries. -/
def histOf (f : Kind → E → Hist E) (r : Roster E) : List (Hist E) :=
  [Kind.queue, .awake, .deferred, .cancel, .unblock, .disposed, .cleanup, .despawn].flatMap
    fun k => (r.get k).map (f k)

/-- One step of the flush, src/flush.rs:90-326. -/
def tick (P : Prog W E) (s : St W E) : St W E × List (Hist E) :=
  match s.phase with
  | .idle =>
    -- 94-98: new roster, loop_count = 0
    ({ s with params := P.params s.world, roster := {}, loopCount := 0, received := 0,
              phase := .recv }, [])
  | .recv =>
    match s.chan with
    | [] => ({ s with phase := .services }, [])
    | e :: rest =>
      let r := perform P (.item e) { s with chan := rest }
      if reached s.params.channelLimit s.received then
        ({ r.1 with phase := .services }, .received e :: r.2)
      else ({ r.1 with received := s.received + 1 }, .received e :: r.2)
  | .services =>
    let s1 := { s with roster := s.roster.processDeferals }
    let r := perform P .services s1
    ({ r.1 with phase := .merge }, s.roster.deferred.map .undeferred ++ r.2)
  | .merge =>
    let roster := s.roster.append s.later
    ({ s with roster := { roster with awake := roster.awake ++ s.wake }, later := {}, wake := [],
              phase := .targets },
      histOf .merged s.later ++ s.wake.flatMap (fun e => [.new .awake e, .entered .awake e]))
  | .targets =>
    let r := perform P .targets s
    ({ r.1 with phase := .dispose }, r.2)
  | .dispose =>
    match s.roster.disposed.getLast? with
    | none => ({ s with phase := .top }, [])
    | some e =>
      runEntry P .disposed e .dispose
        { s with roster := { s.roster with disposed := s.roster.disposed.dropLast } }
  | .top =>
    if s.roster.isEmpty then ({ s with phase := .idle }, [.ended])
    else ({ s with phase := .despawn }, [])
  | .despawn =>
    match s.roster.despawn with
    | [] => ({ s with phase := .limit }, [])
    | e :: rest =>
      runEntry P .despawn e .despawn { s with roster := { s.roster with despawn := rest } }
  | .limit =>
    let p := P.params s.world
    if reached p.loopLimit s.loopCount then
      ({ s with params := p, later := s.later.append s.roster, roster := {}, phase := .idle },
        histOf .kept s.roster ++ [.ended])
    else ({ s with params := p, loopCount := s.loopCount + 1, phase := .cleanups .unblock }, [])
  | .cleanups ret =>
    match s.roster.cleanup.getLast? with
    | none => ({ s with phase := .cancels ret }, [])
    | some e =>
      runEntry P .cleanup e (.cleanups ret)
        { s with roster := { s.roster with cleanup := s.roster.cleanup.dropLast } }
  | .cancels ret =>
    match s.roster.cancel with
    | [] => ({ s with phase := ret }, [])
    | e :: rest =>
      runEntry P .cancel e (.cancels ret) { s with roster := { s.roster with cancel := rest } }
  | .unblock =>
    match s.roster.unblock with
    | [] => ({ s with phase := .queue }, [])
    | e :: rest =>
      runEntry P .unblock e (.cleanups .unblock)
        { s with roster := { s.roster with unblock := rest } }
  | .queue =>
    match s.roster.queue with
    | [] => ({ s with phase := .awake }, [])
    | e :: rest =>
      runEntry P .queue e (.cleanups .queueCheck)
        { s with roster := { s.roster with queue := rest } }
  | .queueCheck =>
    let n := s.loopCount + 1
    if reached s.params.loopLimit n then ({ s with loopCount := n, phase := .awake }, [])
    else ({ s with loopCount := n, phase := .queue }, [])
  | .awake =>
    match s.roster.awake with
    | [] => ({ s with received := 0, phase := .recv }, [])
    | e :: rest =>
      runEntry P .awake e (.cleanups .awake) { s with roster := { s.roster with awake := rest } }

/-- What can happen: the flush makes a step, or somebody else (another thread,
another Bevy system between flushes, a command queue) changes the world, sends on
the channel, wakes a task or adds to the `DeferredRoster`. -/
inductive Ev (W E : Type) where
  | tick
  | env (f : W → W) (later : List (Kind × E)) (chan wake : List E)

def step (P : Prog W E) (s : St W E) : Ev W E → St W E × List (Hist E)
  | .tick => tick P s
  | .env f l c w =>
    applyEffs { s with world := f s.world, chan := s.chan ++ c, wake := s.wake ++ w }
      (l.map fun p => .later p.1 p.2)

def run (P : Prog W E) (s : St W E) : List (Ev W E) → St W E × List (Hist E)
  | [] => (s, [])
  | v :: vs =>
    let r := step P s v
    let r' := run P r.1 vs
    (r'.1, r.2 ++ r'.2)

/-- No flush has run yet. -/
def init (w : W) : St W E :=
  { world := w, roster := {}, later := {}, chan := [], wake := [], loopCount := 0,
    received := 0, params := ⟨none, none⟩, phase := .idle }

end Verif.Flush
