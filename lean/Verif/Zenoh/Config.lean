/-
Model of how the configurations of the zenoh nodes reach zenoh, and of the session that they share:
`/repo/src/diagram/zenoh.rs` and `/repo/src/diagram/zenoh/register_zenoh_*.rs`.

What zenoh is asked for is recorded as a list of *settings*, one for each call of a builder method.
The methods of zenoh set what their names say (this is trusted). Encoders and decoders are used
by the nodes themselves, so they are no settings; see `Publish` and `Nodes`.
-/

namespace Verif.Zenoh.Config

/-- `ZenohCongestionControlConfig` (zenoh.rs:71-75). -/
inductive Congestion
  | drop
  | block
  deriving DecidableEq

/-- `ZenohPriorityConfig` (zenoh.rs:88-97). -/
inductive Priority
  | realTime
  | interactiveHigh
  | interactiveLow
  | dataHigh
  | data
  | dataLow
  | background
  deriving DecidableEq

/-- `ZenohLocalityConfig` (zenoh.rs:117-122). -/
inductive Locality
  | sessionLocal
  | remote
  | any
  deriving DecidableEq

/-- `ZenohPublisherReliability` (register_zenoh_publisher.rs:144-148). -/
inductive Reliability
  | bestEffort
  | reliable
  deriving DecidableEq

/-- `ZenohPublisherHeartbeatConfig` (register_zenoh_publisher.rs:111-121). A period is a number of
some kind `D`; the conversion from seconds to `Duration` is not modelled. -/
structure Heartbeat (D : Type) where
  period : D
  sporadic : Bool
  deriving DecidableEq

/-- `ZenohPublisherConfig` (register_zenoh_publisher.rs:28-54) without `encoder` and `ordering`.
`heartbeat = none` is `Disable`. -/
structure Publisher (D : Type) where
  key : String
  maxSamples : Option Nat
  heartbeat : Option (Heartbeat D)
  priority : Priority
  congestion : Congestion
  express : Bool
  reliability : Reliability
  locality : Locality
  deriving DecidableEq

/-- What a publisher of zenoh is asked for. -/
inductive PubSetting (D : Type)
  | key (k : String)
  | samples (n : Nat)
  /-- how the replies from the cache are sent (`RepliesConfig`) -/
  | replyCongestion (c : Congestion)
  | replyPriority (p : Priority)
  | replyExpress (b : Bool)
  | detection
  /-- a heartbeat that is sent each period -/
  | heartbeat (d : D)
  /-- a heartbeat that is sent in a period if something was published -/
  | sporadicHeartbeat (d : D)
  /-- how messages are published -/
  | congestion (c : Congestion)
  | priority (p : Priority)
  | express (b : Bool)
  | reliability (r : Reliability)
  | locality (l : Locality)
  deriving DecidableEq

variable {D : Type}

/-- `From<ZenohPublisherHeartbeatConfig> for MissDetectionConfig`
(register_zenoh_publisher.rs:131-140). -/
def Heartbeat.setting (h : Heartbeat D) : PubSetting D :=
  if h.sporadic then .heartbeat h.period else .sporadicHeartbeat h.period

/-- `cache_config` and `replies_config` (register_zenoh_publisher.rs:56-73). -/
def Publisher.cache (c : Publisher D) : List (PubSetting D) :=
  [.replyCongestion c.congestion, .replyPriority c.priority, .replyExpress c.express] ++
    (match c.maxSamples with
     | none => []
     | some n => [.samples n])

/-- The declaration of the publisher (register_zenoh_publisher.rs:216-228). -/
def Publisher.settings (c : Publisher D) : List (PubSetting D) :=
  .key c.key :: c.cache ++ [.detection] ++
    (match c.heartbeat with
     | none => []
     | some h => [h.setting])

/-- `ZenohQueryTargetConfig` (register_zenoh_querier.rs:116-127). -/
inductive Target
  | bestMatching
  | all
  | allComplete
  deriving DecidableEq

/-- `ZenohQueryConsolidationModeConfig` (register_zenoh_querier.rs:83-101). -/
inductive Consolidation
  | auto
  | none
  | monotonic
  | latest
  deriving DecidableEq

/-- `ZenohQuerierConfig` (register_zenoh_querier.rs:28-56) without `encoder`, `decoder`,
`wait_for_matching`, for which see `Nodes`. Parameters are what is sent with each query. -/
structure Querier (D : Type) where
  key : String
  parameters : List (String × String)
  congestion : Congestion
  priority : Priority
  express : Bool
  target : Target
  consolidation : Consolidation
  locality : Locality
  timeout : Option D
  deriving DecidableEq

/-- What a querier of zenoh and its queries are asked for. -/
inductive QrySetting (D : Type)
  | key (k : String)
  | congestion (c : Congestion)
  | priority (p : Priority)
  | express (b : Bool)
  | target (t : Target)
  | consolidation (c : Consolidation)
  | destination (l : Locality)
  | timeout (d : D)
  | parameters (ps : List (String × String))
  deriving DecidableEq

/-- The declaration of the querier (register_zenoh_querier.rs:163-176) and the parameters of its
queries (194-197 and 228-230). -/
def Querier.settings (c : Querier D) : List (QrySetting D) :=
  [.key c.key, .congestion c.congestion, .priority c.priority, .express c.express, .target c.target,
    .consolidation c.consolidation, .destination c.locality] ++
    (match c.timeout with
     | none => []
     | some t => [.timeout t]) ++ [.parameters c.parameters]

/-- `ZenohSubscriptionRecoveryConfig` (register_zenoh_subscription.rs:86-95). -/
inductive Recovery (D : Type)
  | none
  | periodicQueries (d : D)
  | heartbeat
  deriving DecidableEq

/-- `ZenohSubscriptionConfig` (register_zenoh_subscription.rs:29-61) without `decoder`. -/
structure Subscription (D : Type) where
  key : String
  detectLate : Bool
  maxSamples : Option Nat
  maxAge : Option D
  recovery : Recovery D
  locality : Locality
  deriving DecidableEq

/-- What a subscription of zenoh is asked for. -/
inductive SubSetting (D : Type)
  | key (k : String)
  | origin (l : Locality)
  | detectLate
  | samples (n : Nat)
  | age (d : D)
  | periodicQueries (d : D)
  | heartbeat
  deriving DecidableEq

/-- Lines 186-198. -/
def Recovery.settings : Recovery D → List (SubSetting D)
  | .none => []
  | .periodicQueries d => [.periodicQueries d]
  | .heartbeat => [.heartbeat]

/-- The declaration of the subscription (register_zenoh_subscription.rs:65-83 and 181-200). -/
def Subscription.settings (c : Subscription D) : List (SubSetting D) :=
  [.key c.key, .origin c.locality] ++ (if c.detectLate then [.detectLate] else []) ++
    c.maxSamples.toList.map .samples ++ c.maxAge.toList.map .age ++ c.recovery.settings

/-! ### The session -/

/-- The Worlds and registries of a program. `pending r` is the configuration in the
`EnsureZenohSession` that the nodes of registry `r` share, `session w` the resource
`ZenohSession` of World `w`: the number of the session. `opened` is the history of sessions opened:
for which World and with what configuration. -/
structure Env (C : Type) where
  pending : Nat → Option C := fun _ => none
  enabled : Nat → Bool := fun _ => false
  session : Nat → Option Nat := fun _ => none
  opened : List (Nat × C) := []

inductive Ev (C : Type)
  /-- `enable_zenoh` of a registry -/
  | enable (r : Nat) (c : C)
  /-- a zenoh node of registry `r` is built into a workflow of World `w` -/
  | build (r w : Nat)

variable {C : Type}

/-- `enable_zenoh` (zenoh.rs:51-67) makes a new `EnsureZenohSession`; building a node queues it as
a command, which opens a session if the configuration is still there (zenoh.rs:243-259). A node of
a registry that is not enabled does not exist. -/
def Env.step (e : Env C) : Ev C → Env C
  | .enable r c =>
    { e with
      pending := fun x => if x = r then some c else e.pending x
      enabled := fun x => if x = r then true else e.enabled x }
  | .build r w =>
    match e.pending r with
    | none => e
    | some c =>
      { e with
        pending := fun x => if x = r then none else e.pending x
        session := fun x => if x = w then some e.opened.length else e.session x
        opened := e.opened ++ [(w, c)] }

def Env.run (e : Env C) (vs : List (Ev C)) : Env C := vs.foldl Env.step e

end Verif.Zenoh.Config
