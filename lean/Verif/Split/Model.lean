import Verif.Fork.Model

/-
Model of the split operation: the keys and their iteration, the builder that connects keys to
outputs, the dispatch of the elements of a collection, and the operation itself.

Sources: src/chain/split.rs, src/operation/operate_split.rs, src/diagram/split_schema.rs.
-/
namespace Verif.Split

open Verif.Input Verif.Fork

/-! ### Keys -/

/-- `ListSplitKey`, src/chain/split.rs:504-509. -/
inductive ListKey where
  | sequential (n : Nat)
  | remaining
  deriving DecidableEq, Repr

/-- `MapSplitKey<K>`, src/chain/split.rs:667-675. -/
inductive MapKey (K : Type) where
  | specific (k : K)
  | sequential (n : Nat)
  | remaining
  deriving DecidableEq, Repr

/-- `Splittable::validate` and `Splittable::next`, src/chain/split.rs:50, 55. -/
structure Keys (Key : Type) where
  validate : Key → Bool
  next : Option Key → Option Key

/-- `SplitAsList`, `Vec` and `SmallVec`, src/chain/split.rs:550-565, 593-600, 615-622. -/
def listNext : Option ListKey → Option ListKey
  | some (.sequential k) => some (.sequential (k + 1))
  | some .remaining => none
  | none => some (.sequential 0)

def listKeys : Keys ListKey where
  validate := fun _ => true
  next := listNext

def arrayValid (n : Nat) : ListKey → Bool
  | .sequential s => decide (s < n)
  | .remaining => true

/-- `[T; N]`, src/chain/split.rs:637-653. -/
def arrayKeys (n : Nat) : Keys ListKey where
  validate := arrayValid n
  next := fun key =>
    match listNext key with
    | some k => if arrayValid n k then some k else none
    | none => none

/-- `MapSplitKey::next`, src/chain/split.rs:685-699; `validate` of the maps and of JSON
values accepts every key (lines 766-769, 821-823, 846-848; src/diagram/split_schema.rs:148). -/
def mapKeys (K : Type) : Keys (MapKey K) where
  validate := fun _ => true
  next := fun
    | some (.sequential i) => some (.sequential (i + 1))
    | some (.specific _) => none
    | some .remaining => none
    | none => some (.sequential 0)

/-! ### The builder -/

/-- `SplitConnectionError`, src/chain/split.rs:439-444. -/
inductive ConnErr where
  | keyAlreadyUsed
  | keyOutOfBounds
  deriving DecidableEq, Repr

/-- `SplitOutputs` (src/chain/split.rs:358-363) of a `SplitBuilder`, with what goes to the
builder's commands: `spawned` counts the entities spawned for outputs (they are numbered
`base`, `base + 1`, ...) and `cmds` are the queued `ConnectToSplit` commands. -/
structure Builder (Key : Type) where
  used : List Key := []
  lastKey : Option Key := none
  base : Nat
  spawned : Nat := 0
  cmds : List (Key × Nat) := []

variable {Key : Type} [DecidableEq Key]

/-- `output_for`, src/chain/split.rs:250-270; the output is its target entity. -/
def Builder.outputFor (ks : Keys Key) (b : Builder Key) (k : Key) :
    Builder Key × Except ConnErr Nat :=
  if !ks.validate k then (b, .error .keyOutOfBounds)
  else if k ∈ b.used then (b, .error .keyAlreadyUsed)
  else
    ({ b with
      used := b.used ++ [k]
      spawned := b.spawned + 1
      cmds := b.cmds ++ [(k, b.base + b.spawned)] }, .ok (b.base + b.spawned))

/-- The loop of `Iterator::next`, src/chain/split.rs:330-352. `none` in the second component
of the result means that the rounds ran out, which the theorems show not to happen for the
keys of the library. -/
def Builder.nextLoop (ks : Keys Key) : Nat → Builder Key → Builder Key × Option (Option (Key × Nat))
  | 0, b => (b, none)
  | fuel + 1, b =>
    match ks.next b.lastKey with
    | none => (b, some none)
    | some k =>
      match ({ b with lastKey := some k }).outputFor ks k with
      | (b, .ok o) => (b, some (some (k, o)))
      | (b, .error .keyAlreadyUsed) => nextLoop ks fuel b
      | (b, .error .keyOutOfBounds) => (b, some none)

/-- `Iterator::next`: every round but the last consumes a key that is in use. -/
def Builder.next (ks : Keys Key) (b : Builder Key) : Builder Key × Option (Option (Key × Nat)) :=
  b.nextLoop ks (b.used.length + 1)

/-- The calls a user can make. `specific_output`, `sequential_output`, `remaining_output` and
the `*_chain` and `*_branch` functions (src/chain/split.rs:85-247, 275-312) come down to
`output_for` or `next`; `outputs`, `unpack` and `SplitOutputs::build` carry the state over
unchanged. -/
inductive Call (Key : Type) where
  | outputFor (k : Key)
  | next
  deriving DecidableEq, Repr

/-- What a call returned: an output with its key, an error, or (for `next`) nothing. -/
inductive Ret (Key : Type) where
  | ok (k : Key) (target : Nat)
  | err (e : ConnErr)
  | done
  | diverged
  deriving DecidableEq, Repr

def Builder.call (ks : Keys Key) (b : Builder Key) : Call Key → Builder Key × Ret Key
  | .outputFor k =>
    match b.outputFor ks k with
    | (b, .ok t) => (b, .ok k t)
    | (b, .error e) => (b, .err e)
  | .next =>
    match b.next ks with
    | (b, some (some (k, t))) => (b, .ok k t)
    | (b, some none) => (b, .done)
    | (b, none) => (b, .diverged)

def Builder.calls (ks : Keys Key) (b : Builder Key) : List (Call Key) → Builder Key × List (Ret Key)
  | [] => (b, [])
  | c :: cs =>
    let r := b.call ks c
    let r' := Builder.calls ks r.1 cs
    (r'.1, r.2 :: r'.2)

/-! ### The operation -/

/-- `OperateSplit`, src/operation/operate_split.rs:30-41, with the node's
`ForkTargetStorage`. `connections` is a hash map: an association list with at most one entry
per key. `indexToKey` holds the key itself instead of its debug representation.
`doubled` counts the "double-connected key" and "reverse map" complaints of lines 174-217. -/
structure Split (Key Id V : Type) where
  connections : List (Key × Nat) := []
  indexToKey : List Key := []
  cache : Option (List (List (Id × V))) := some []
  targets : List Nat := []
  doubled : Nat := 0

variable {Id V : Type}

/-- `HashMap::insert`. -/
def insertKey (m : List (Key × Nat)) (k : Key) (i : Nat) : List (Key × Nat) :=
  match m with
  | [] => [(k, i)]
  | (k', j) :: rest => if k' = k then (k, i) :: rest else (k', j) :: insertKey rest k i

/-- `Vec::resize_with(n, Vec::new)`. -/
def resize {α : Type} (l : List (List α)) (n : Nat) : List (List α) :=
  l.take n ++ List.replicate (n - l.length) []

/-- `ConnectToSplit::connect`, src/operation/operate_split.rs:155-219. A lost cache makes it
return at line 172, after the connection was recorded. -/
def Split.connect (s : Split Key Id V) (k : Key) (target : Nat) : Split Key Id V :=
  let index := s.targets.length
  let prev := s.connections.any fun p => p.1 = k
  let s := { s with targets := s.targets ++ [target], connections := insertKey s.connections k index }
  match s.cache with
  | none => s
  | some c =>
    let s := { s with cache := some (resize c (index + 1)) }
    let s :=
      if s.indexToKey.length ≠ index then { s with doubled := s.doubled + 1 }
      else { s with indexToKey := s.indexToKey ++ [k] }
    if prev then { s with doubled := s.doubled + 1 } else s

/-- The commands of a builder applied in order. -/
def Split.connectAll (s : Split Key Id V) : List (Key × Nat) → Split Key Id V
  | [] => s
  | (k, t) :: rest => (s.connect k t).connectAll rest

/-- `SplitDispatcher`, src/chain/split.rs:448-451. -/
structure Dispatcher (Key Id V : Type) where
  connections : List (Key × Nat)
  outputs : List (List (Id × V))

/-- `HashMap::get`. -/
def lookup (m : List (Key × Nat)) (k : Key) : Option Nat :=
  (m.find? fun p => p.1 = k).map (·.2)

/-- `outputs_for(key)` followed, if it is connected, by a push of the item,
src/chain/split.rs:464-474. `none`: there is no connection for the key. -/
def Dispatcher.push (d : Dispatcher Key Id V) (k : Key) (x : Id × V) : Option (Dispatcher Key Id V) :=
  match lookup d.connections k with
  | none => none
  | some i =>
    let outputs := if d.outputs.length ≤ i then resize d.outputs (i + 1) else d.outputs
    some { d with outputs := outputs.modify i (· ++ [x]) }

/-- `SplitAsList::split`, src/chain/split.rs:567-585; `n` is the position of the first
element. Also `Vec`, `SmallVec` and `[T; N]`. -/
def splitList (n : Nat) (d : Dispatcher ListKey Nat V) : List V → Dispatcher ListKey Nat V
  | [] => d
  | v :: vs =>
    let d := (d.push (.sequential n) (n, v)).getD ((d.push .remaining (n, v)).getD d)
    splitList (n + 1) d vs

/-- `SplitAsMap::split`, src/chain/split.rs:775-809. Also `HashMap` and `BTreeMap`: the order
of the elements is that of the iterator. -/
def splitMap {K : Type} [DecidableEq K] (seq : Nat) (d : Dispatcher (MapKey K) K V) :
    List (K × V) → Dispatcher (MapKey K) K V
  | [] => d
  | (k, v) :: rest =>
    match d.push (.specific k) (k, v) with
    | some d => splitMap seq d rest
    | none =>
      let d := (d.push (.sequential seq) (k, v)).getD ((d.push .remaining (k, v)).getD d)
      splitMap (seq + 1) d rest

/-- `JsonPosition`, src/diagram/split_schema.rs:235-246. -/
inductive JPos (K : Type) where
  | singular
  | element (n : Nat)
  | field (k : K)
  deriving DecidableEq, Repr

/-- How a JSON value is seen by a split. -/
inductive Json (K V : Type) where
  | array (items : List V)
  | object (fields : List (K × V))
  | singular (v : V)

/-- The array case, src/diagram/split_schema.rs:161-175. -/
def splitJsonArray {K : Type} [DecidableEq K] (n : Nat) (d : Dispatcher (MapKey K) (JPos K) V) :
    List V → Dispatcher (MapKey K) (JPos K) V
  | [] => d
  | v :: vs =>
    let d := (d.push (.sequential n) (.element n, v)).getD ((d.push .remaining (.element n, v)).getD d)
    splitJsonArray (n + 1) d vs

/-- The object case, src/diagram/split_schema.rs:176-212. -/
def splitJsonObject {K : Type} [DecidableEq K] (seq : Nat)
    (d : Dispatcher (MapKey K) (JPos K) V) :
    List (K × V) → Dispatcher (MapKey K) (JPos K) V
  | [] => d
  | (k, v) :: rest =>
    match d.push (.specific k) (.field k, v) with
    | some d => splitJsonObject seq d rest
    | none =>
      let d := (d.push (.sequential seq) (.field k, v)).getD ((d.push .remaining (.field k, v)).getD d)
      splitJsonObject (seq + 1) d rest

/-- `impl Splittable for Value`, src/diagram/split_schema.rs:156-231. -/
def splitJson {K : Type} [DecidableEq K] (d : Dispatcher (MapKey K) (JPos K) V) :
    Json K V → Dispatcher (MapKey K) (JPos K) V
  | .array items => splitJsonArray 0 d items
  | .object fields => splitJsonObject 0 d fields
  | .singular v =>
    (d.push (.sequential 0) (.singular, v)).getD ((d.push .remaining (.singular, v)).getD d)

/-- What an execution of the split emits besides messages: the keys listed in
`Disposal::incomplete_split`, in `session`. -/
structure Incomplete (Key : Type) where
  session : Nat
  missing : List (Option Key)
  deriving DecidableEq, Repr

/-- The delivery loop, src/operation/operate_split.rs:83-94, over the outputs zipped with the
targets. `mk` makes a message of identifier and item. The result also tells the indices that
had nothing. -/
def deliver (mk : Id × V → V) (session : Nat) : Nat → List (List (Id × V) × Nat) → World V →
    World V × Option Fail × List Nat
  | _, [], w => (w, none, [])
  | i, (items, target) :: rest, w =>
    match w.giveAll session (items.map fun x => (target, mk x)) with
    | (w, some e) => (w, some e, [])
    | (w, none) =>
      let r := deliver mk session (i + 1) rest w
      (r.1, r.2.1, if items.isEmpty then i :: r.2.2 else r.2.2)

/-- `OperateSplit::execute`, src/operation/operate_split.rs:63-120. `split` is
`Splittable::split` of the message type, which may fail when the user wrote it. The cache is
taken at line 75 and given back at line 117, which is not reached on a failure. -/
def execute (split : V → Dispatcher Key Id V → Dispatcher Key Id V × Option Fail)
    (mk : Id × V → V) (source : Nat) (s : Split Key Id V) (w : World V) :
    Split Key Id V × World V × Option Fail × List (Incomplete Key) :=
  match w.take source with
  | (w, .error e) => (s, w, some e, [])
  | (w, .ok i) =>
    let outputs := s.cache.getD []
    let s := { s with cache := none }
    match split i.data ⟨s.connections, outputs⟩ with
    | (_, some e) => (s, w, some e, [])
    | (d, none) =>
      match deliver mk i.session 0 (d.outputs.zip s.targets) w with
      | (w, some e, _) => (s, w, some e, [])
      | (w, none, missed) =>
        let cleared := d.outputs.zipIdx.map fun p => if p.2 < s.targets.length then [] else p.1
        ({ s with cache := some cleared }, w, none,
          if missed.isEmpty then []
          else [⟨i.session, missed.map fun i => s.indexToKey[i]?⟩])

/-! ### The split of a diagram -/

/-- `FromSpecific for ListSplitKey`, src/diagram/split_schema.rs:248-257; `parse` is
`str::parse::<usize>`. -/
def listFromSpecific {K : Type} (parse : K → Option Nat) (k : K) : ListKey :=
  match parse k with
  | some n => .sequential n
  | none => .remaining

/-- A `for` loop over calls of `output_for` with `?`, src/diagram/split_schema.rs:288-306. -/
def outputsFor (ks : Keys Key) (b : Builder Key) : List Key → Builder Key × Except ConnErr (List (Key × Nat))
  | [] => (b, .ok [])
  | k :: rest =>
    match b.outputFor ks k with
    | (b, .error e) => (b, .error e)
    | (b, .ok t) =>
      match outputsFor ks b rest with
      | (b, .error e) => (b, .error e)
      | (b, .ok l) => (b, .ok ((k, t) :: l))

/-- `perform_split`, src/diagram/split_schema.rs:281-313: the keyed connections (a hash map, so
in any order and with distinct names), then the sequential ones, then the remaining one. The
type erasure of the outputs and the `map_block` that drops the identifier are left out. -/
def performSplit {K : Type} (ks : Keys Key) (fromSpecific : K → Key) (fromSequential : Nat → Key)
    (forRemaining : Key) (base : Nat) (keyed : List K) (sequential : Nat) (remaining : Bool) :
    Builder Key × Except ConnErr (List (Key × Nat)) :=
  outputsFor ks { base } (keyed.map fromSpecific ++ (List.range sequential).map fromSequential ++
    if remaining then [forRemaining] else [])

end Verif.Split
