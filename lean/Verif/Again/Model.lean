/-
Model of how a blocking service, a blocking map and a blocking callback are taken out of their storage to
serve a request and put back: `BlockingServiceStorage::serve` (src/service/blocking.rs:71-186),
`OperateBlockingMap::execute` (src/operation/operate_map.rs:85-133), `OperateCallback::execute`
(src/operation/operate_callback.rs:61-117) with `BlockingCallbackSystem::call` (src/callback.rs:282-317).

Simplified:
* The user's system or function is a state with a function of a request. What else it does to the world is
  given by a `Turn`.
* Only requests that are not made while another one is served; for those see Verif/Reentrant.
* A provider that was removed is not inserted again.
* Initialising a system (blocking.rs:113-119) does nothing but mark it as initialised.
* The items of the streams are not part of it, see Verif/Streams.
-/
namespace Verif.Again

/-- What is taken away from a service while its system runs. -/
inductive Removal where
  /-- only the component with the system -/
  | storage
  /-- the entity, or all of its components -/
  | entity
  deriving DecidableEq, Repr

/-- What happens while a request is served, besides the response.

`kept`: a clone of a stream buffer outlives the run of the system, so that `Rc::into_inner` gives nothing
and processing the streams fails (src/stream/anonymous_stream.rs:166-167, src/stream/named_stream.rs:148-149).
`unused`: some stream was not used, for which a disposal is emitted. `source`, `target`: the node of the
request and the one of the response exist when the system has run. -/
structure Turn where
  removes : Option Removal := none
  kept : Bool := false
  unused : Bool := false
  source : Bool := true
  target : Bool := true
  deriving DecidableEq, Repr

/-- How it ends. -/
inductive Out (P : Type) where
  /-- `OperationError::NotReady`: there is no request -/
  | notReady
  /-- the response is given to the target -/
  | answered (p : P)
  /-- the service is gone and the request is disposed of -/
  | disposed
  /-- the request is taken, and neither answered nor disposed of -/
  | lost
  /-- `OperationError::Broken` -/
  | broken
  /-- a failed `expect` -/
  | panic
  deriving DecidableEq, Repr

/-- The end of all three: the disposal for unused streams and the response, blocking.rs:172-184,
operate_map.rs:119-131, callback.rs:183-195. -/
def finish {P : Type} (t : Turn) (p : P) : Out P :=
  if t.unused && !t.source then .broken
  else if t.target then .answered p
  else .broken

/-! ### Services -/

/-- The provider: with an `UninitBlockingServiceStorage`, with a `BlockingServiceStorage`, with neither of
them but with a `ServiceHook`, or without that too. -/
inductive Store (S : Type) where
  | uninit (s : S)
  | stored (s : Option S)
  | removed
  | despawned
  deriving DecidableEq, Repr

/-- The provider while the system runs, blocking.rs:100-120, and what the system does to it. -/
def during {S : Type} (t : Turn) : Store S :=
  match t.removes with
  | none => .stored none
  | some .storage => .removed
  | some .entity => .despawned

/-- The system is put back, blocking.rs:156-170. -/
def Store.putBack {S : Type} (st : Store S) (s : S) : Store S :=
  match st with
  | .stored _ => .stored (some s)
  | st => st

/-- From the run of the system to the end of `serve`, blocking.rs:133-184. -/
def serveWith {S Q P : Type} (sys : S → Q → S × P) (s : S) (q : Q) (t : Turn) : Store S × Out P :=
  let r := sys s q
  -- 146-154
  if t.kept then (during t, .broken)
  else ((during t).putBack r.1, finish t r.2)

/-- `serve`, blocking.rs:79-185, with what `dispatch_service` does before (src/service/internal.rs:232-238): if
there is no `ServiceHook` it disposes of all that waits in front of the service, this request too. If only the
storage is missing then `serve` does so (blocking.rs:121-125), but it has already taken the request
(blocking.rs:91-98), which is then not among them (`dispose_for_unavailable_service`,
src/operation/operate_service.rs:194-206). What else waits is not part of this model, see Verif/Gone. -/
def serve {S Q P : Type} (sys : S → Q → S × P) (st : Store S) (q : Option Q) (t : Turn) :
    Store S × Out P :=
  match q with
  | none => (st, .notReady)
  | some q =>
    match st with
    | .stored (some s) => serveWith sys s q t
    -- "Service is missing while attempting to serve"
    | .stored none => (st, .panic)
    | .uninit s => serveWith sys s q t
    | .removed => (st, .lost)
    | .despawned => (st, .disposed)

/-! ### Maps -/

/-- `OperateBlockingMap::execute`, operate_map.rs:85-133. A map has no access to the world. -/
def callMap {S Q P : Type} (sys : S → Q → S × P) (f : Option S) (q : Option Q) (t : Turn) :
    Option S × Out P :=
  match q with
  | none => (f, .notReady)
  | some q =>
    match f with
    | none => (f, .broken)
    | some s =>
      let r := sys s q
      -- 108
      (some r.1, if t.kept then .broken else finish t r.2)

/-! ### Callbacks -/

/-- `BlockingCallbackSystem::call`, callback.rs:282-317. -/
def callSystem {S Q P : Type} (sys : S → Q → S × P) (s : S) (q : Option Q) (t : Turn) : S × Out P :=
  match q with
  | none => (s, .notReady)
  | some q =>
    let r := sys s q
    (r.1, if t.kept then .broken else finish t r.2)

/-- `OperateCallback::execute`, operate_callback.rs:61-117. `none` as the result is that the request is
queued. -/
def callCallback {S Q P : Type} (sys : S → Q → S × P) (c : Option S) (q : Option Q) (t : Turn) :
    Option S × Option (Out P) :=
  match c with
  | none => (none, none)
  | some s =>
    let r := callSystem sys s q t
    (some r.1, some r.2)

/-! ### Runs -/

/-- One after the other, with what comes of each. -/
def runAll {A B C : Type} (f : A → B → A × C) (a : A) : List B → A × List C
  | [] => (a, [])
  | b :: l =>
    let r := f a b
    let rest := runAll f r.1 l
    (rest.1, r.2 :: rest.2)

end Verif.Again
