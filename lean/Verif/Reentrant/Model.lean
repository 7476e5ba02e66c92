/-
Models of `OperateCallback::execute` (src/operation/operate_callback.rs:61-117) and of
`dispatch_service` (src/service/internal.rs:201-243), for requests that cause further
requests while they are being served. A callback or a blocking service can be an exclusive
system, which may flush the workflows; the flush executes the nodes that are ready, and
these may belong to the same callback or to any service.

Requests form a tree: `node r kids` is the request `r`, and serving it causes the requests
`kids`, in that order, before its own serving ends. The functions below call each other
like the Rust functions do. They are bounded by a number of calls (`fuel`); the theorems
show that the bound is never the reason for a result.
-/
namespace Verif.Reentrant

/-- A request and the requests that are caused while it is served. -/
inductive Tree (R : Type) where
  | node (r : R) (kids : List (Tree R))

inductive Err where
  /-- the bound on the number of calls was too small (not an outcome of the program) -/
  | fuel
  /-- `Mutex::lock` on a mutex that the same thread holds -/
  | deadlock
  /-- a failed `expect` -/
  | panic
  deriving DecidableEq, Repr

/-! ### Callbacks -/

/-- `InnerCallback`, src/callback.rs:151-155. `available`: `callback` is `Some`. `locked`:
the mutex is held. `log`: the requests that were served, oldest first. -/
structure Cb where
  available : Bool := true
  queue : List (Tree Nat) := []
  locked : Bool := false
  log : List Nat := []

mutual

/-- `OperateCallback::execute`, src/operation/operate_callback.rs:61-117. -/
def execute : Nat → Cb → Tree Nat → Except Err Cb
  | 0, _, _ => .error .fuel
  | fuel + 1, s, t =>
    if s.locked then .error .deadlock
    else if s.available then
      match call fuel { s with available := false } t with
      | .error e => .error e
      | .ok s => emptyQueue fuel s
    else .ok { s with queue := s.queue ++ [t] }

/-- The loop in lines 99-114. The guard `inner` lives until the end of the body of the loop,
so the mutex is held during the call. -/
def emptyQueue : Nat → Cb → Except Err Cb
  | 0, _ => .error .fuel
  | fuel + 1, s =>
    if s.locked then .error .deadlock
    else
      match s.queue with
      | [] => .ok { s with available := true }
      | t :: rest =>
        match call fuel { s with queue := rest, locked := true } t with
        | .error e => .error e
        | .ok s => emptyQueue fuel { s with locked := false }

/-- `CallbackTrait::call`, for example src/callback.rs:257-297: the request is served, which
executes the nodes of the requests that it causes. -/
def call : Nat → Cb → Tree Nat → Except Err Cb
  | 0, _, _ => .error .fuel
  | fuel + 1, s, .node r kids => executeAll fuel { s with log := s.log ++ [r] } kids

def executeAll : Nat → Cb → List (Tree Nat) → Except Err Cb
  | 0, _, _ => .error .fuel
  | _ + 1, s, [] => .ok s
  | fuel + 1, s, t :: ts =>
    match execute fuel s t with
    | .error e => .error e
    | .ok s => executeAll fuel s ts

end

/-! ### Services -/

/-- A request of a service: the node `source` holds its input, `provider` is the service. -/
structure Req where
  id : Nat
  provider : Nat
  deriving DecidableEq, Repr

/-- What happened to a request: its input was taken and the service ran, or its input was
taken and a disposal was emitted. -/
inductive Rec where
  | served (r : Req)
  | disposed (r : Req)
  deriving DecidableEq, Repr

/-- `ServiceQueue`, src/service/internal.rs:184-198, with the part of the world that matters.
`inputs`: the requests whose input is in the storage of their node. `missing`: the
providers without a `ServiceHook`. `taken`: the blocking service that is running has been
taken out of its storage (src/service/blocking.rs:100-107); it is put back at the end
(src/service/blocking.rs:157-170). Simplified: every node has at most one input, so a
request stands for its node as well; the availability of services does not change during a
dispatch. -/
structure Disp where
  delivering : Bool := false
  queue : List (Tree Req) := []
  inputs : List Req := []
  missing : List Nat := []
  taken : List Nat := []
  log : List Rec := []

/-- `dispose_for_despawned_service` and `dispose_for_unavailable_service`,
src/operation/operate_service.rs:147-211: the inputs of all nodes of that provider are
taken out and disposals are emitted. -/
def Disp.dispose (s : Disp) (provider : Nat) : Disp := { s with
  inputs := s.inputs.filter (fun r => r.provider != provider)
  log := s.log ++ (s.inputs.filter (fun r => r.provider == provider)).map .disposed }

mutual

/-- `dispatch_service`, src/service/internal.rs:201-243, called by
`OperateService::execute` (src/operation/operate_service.rs:76-89). -/
def dispatch : Nat → Disp → Tree Req → Except Err Disp
  | 0, _, _ => .error .fuel
  | fuel + 1, s, .node r kids =>
    let s' : Disp := { s with queue := s.queue ++ [.node r kids] }
    if s'.delivering then .ok s'
    else deliverAll fuel { s' with delivering := true } r.provider

/-- The loop of lines 232-242. `provider` is the provider of the request with which
`dispatch_service` was called; line 236 uses it instead of that of the request at hand. -/
def deliverAll : Nat → Disp → Nat → Except Err Disp
  | 0, _, _ => .error .fuel
  | fuel + 1, s, provider =>
    match s.queue.getLast? with
    | none => .ok { s with delivering := false }
    | some t =>
      let s' : Disp := { s with queue := s.queue.dropLast }
      match t with
      | .node r kids =>
        if r.provider ∈ s'.missing then deliverAll fuel (s'.dispose provider) provider
        else
          match serve fuel s' r kids with
          | .error e => .error e
          | .ok s'' => deliverAll fuel s'' provider

/-- `BlockingServiceStorage::serve`, src/service/blocking.rs:78-194. Without an input the
request is not ready (lines 90-96) and nothing happens. -/
def serve : Nat → Disp → Req → List (Tree Req) → Except Err Disp
  | 0, _, _, _ => .error .fuel
  | fuel + 1, s, r, kids =>
    if r ∈ s.inputs then
      if r.provider ∈ s.taken then .error .panic
      else
        match triggerAll fuel { s with
            inputs := s.inputs.erase r
            taken := r.provider :: s.taken
            log := s.log ++ [.served r] } kids with
        | .error e => .error e
        | .ok s' => .ok { s' with taken := s'.taken.erase r.provider }
    else .ok s

/-- The service gives inputs to nodes and flushes; the nodes are executed. -/
def triggerAll : Nat → Disp → List (Tree Req) → Except Err Disp
  | 0, _, _ => .error .fuel
  | _ + 1, s, [] => .ok s
  | fuel + 1, s, .node r kids :: ts =>
    match dispatch fuel { s with inputs := s.inputs ++ [r] } (.node r kids) with
    | .error e => .error e
    | .ok s' => triggerAll fuel s' ts

end

end Verif.Reentrant
