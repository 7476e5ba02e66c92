import Verif.Views.Model

/-
Model of the references to buffers, of the conversions between them, of what a join
takes through them, and of the layouts that a map of buffers can be turned into.

Source: /repo/src/buffer.rs, /repo/src/buffer/any_buffer.rs,
/repo/src/buffer/json_buffer.rs, /repo/src/buffer/fetch_from_buffer.rs,
/repo/src/buffer/buffer_map.rs, /repo/src/buffer/buffering.rs,
/repo/src/buffer/manage_buffer.rs, /repo/macros/src/derive_buffer.rs.
-/
namespace Verif.Refs

open Verif.Buffer (Storage)
open Verif.Views (Box Serde)

/-- `JoinBehavior`, any_buffer.rs:188-194. -/
inductive Behavior where
  | pull
  | clone
  deriving DecidableEq, Repr

/-- `BufferLocation`, buffer.rs:126-131. -/
structure Loc (E : Type) where
  scope : E
  source : E
  deriving DecidableEq, Repr

/-- `AnyBuffer`, any_buffer.rs:49-53, and `JsonBuffer`, json_buffer.rs:52-56. The
interface of the message type is represented by the type. -/
structure AnyRef (E Ty : Type) where
  loc : Loc E
  ty : Ty
  behavior : Behavior
  deriving DecidableEq, Repr

/-- The kinds of references, that is, their Rust types: `Buffer<T>`,
`CloneFromBuffer<T>`, `FetchFromBuffer<T>`, `AnyBuffer` and `JsonBuffer`. -/
inductive Kind (Ty : Type) where
  | buffer (t : Ty)
  | cloneFrom (t : Ty)
  | fetch (t : Ty)
  | any
  | json
  deriving DecidableEq, Repr

/-- A reference. `FetchFromBuffer` (fetch_from_buffer.rs:36-40) has both a function
pointer, which is `pull_for_join` or `clone_for_join`, and the behaviour. -/
inductive Ref (E Ty : Type) where
  | buffer (loc : Loc E) (t : Ty)
  | cloneFrom (loc : Loc E) (t : Ty)
  | fetch (loc : Loc E) (t : Ty) (fn behavior : Behavior)
  | any (a : AnyRef E Ty)
  | json (a : AnyRef E Ty)
  deriving DecidableEq, Repr

/-- The global registers: the types for which cloning was registered
(`CloneFromBuffer::register_clone_for_join`, buffer.rs:185-205) and those for which
`JsonBuffer` was (json_buffer.rs:868-915). Both only grow. Both are
process-wide: `OnceLock` statics. -/
structure Reg (Ty : Type) where
  clone : Ty → Bool
  json : Ty → Bool

section
variable {E Ty : Type} [DecidableEq E] [DecidableEq Ty]

/-- `CloneFromBuffer::register_clone_for_join`, buffer.rs:185-205. -/
def Reg.addClone (g : Reg Ty) (t : Ty) : Reg Ty :=
  { g with clone := fun u => if u = t then true else g.clone u }

/-- `JsonBufferAccessImpl::<T>::get_interface`, json_buffer.rs:868-881: the first call
also registers the basic types, json_buffer.rs:918-939. -/
def Reg.addJson (basic : Ty → Bool) (g : Reg Ty) (t : Ty) : Reg Ty :=
  { g with json := fun u => if u = t then true else basic u || g.json u }

/-- `FetchFromBuffer::<u>::try_from(AnyBuffer)`, fetch_from_buffer.rs:127-146. The
message type is compared only where the function pointer is downcast. -/
def tryFetch (g : Reg Ty) (a : AnyRef E Ty) (u : Ty) : Option (Ref E Ty) :=
  match a.behavior with
  | .pull => some (.fetch a.loc u .pull .pull)
  | .clone => if g.clone a.ty ∧ a.ty = u then some (.fetch a.loc u .clone .clone) else none

/-- `AnyBuffer::downcast_buffer`, any_buffer.rs:153-159, with the functions that are
registered for a message type: any_buffer.rs:974-1004 for all types, buffer.rs:197-202
and json_buffer.rs:890-899 once registered. -/
def downcast (g : Reg Ty) (a : AnyRef E Ty) : Kind Ty → Option (Ref E Ty)
  | .any => some (.any a)
  | .buffer u => if a.ty = u then some (.buffer a.loc u) else none
  | .fetch u => if a.ty = u then tryFetch g a u else none
  | .cloneFrom u => if a.ty = u ∧ g.clone u then some (.cloneFrom a.loc u) else none
  | .json => if g.json a.ty then some (.json a) else none

/-- `AnyBuffer::from`, any_buffer.rs:162-182, fetch_from_buffer.rs:104-113,
json_buffer.rs:161-169; `as_any_buffer` is the same. -/
def Ref.toAny : Ref E Ty → AnyRef E Ty
  | .buffer l t => ⟨l, t, .pull⟩
  | .cloneFrom l t => ⟨l, t, .clone⟩
  | .fetch l t _ b => ⟨l, t, b⟩
  | .any a => a
  | .json a => a

/-- The conversions a builder of a workflow can apply to a reference, and the calls
that change the registers. -/
inductive Conv (Ty : Type) where
  | joinByCloning
  | joinByPulling
  | toAny
  | toJson
  | toFetch
  | toBuffer
  | downcast (k : Kind Ty)
  | downcastForMessage (u : Ty)
  | tryFetch (u : Ty)
  | registerClone (t : Ty)
  | registerJson (t : Ty)
  deriving DecidableEq, Repr

/-- Which message types have the traits `Clone` and `Serialize + DeserializeOwned`, and
which are the basic types of json_buffer.rs:918-939. -/
structure Traits (Ty : Type) where
  clone : Ty → Bool
  serde : Ty → Bool
  basic : Ty → Bool

/-- One conversion. `none`: the method returns `None` or `Err`, or the kind of reference
has no such method (then the program does not compile).

* `joinByCloning`: buffer.rs:86-92 (creates a `CloneFromBuffer`, which registers the
  type), any_buffer.rs:69-73, json_buffer.rs:82-87.
* `joinByPulling`: buffer.rs:167-172, any_buffer.rs:58-61, json_buffer.rs:94-99.
* `toJson`: json_buffer.rs:139-159 (registers the type).
* `toFetch`: fetch_from_buffer.rs:75-83, 94-102.
* `toBuffer`: buffer.rs:232-239, fetch_from_buffer.rs:85-92.
* `downcast`, `downcastForMessage`: any_buffer.rs:140-159, json_buffer.rs:62-76.
* `tryFetch`: fetch_from_buffer.rs:127-146.
* `registerClone`: buffer.rs:185-205; `registerJson`: json_buffer.rs:114-121. -/
def conv (tr : Traits Ty) (g : Reg Ty) (r : Ref E Ty) : Conv Ty → Reg Ty × Option (Ref E Ty)
  | .joinByCloning =>
    match r with
    | .buffer l t => if tr.clone t then (g.addClone t, some (.cloneFrom l t)) else (g, none)
    | .any a => (g, if g.clone a.ty then some (.any { a with behavior := .clone }) else none)
    | .json a => (g, some (.json { a with behavior := .clone }))
    | _ => (g, none)
  | .joinByPulling =>
    match r with
    | .cloneFrom l t => (g, some (.buffer l t))
    | .any a => (g, some (.any { a with behavior := .pull }))
    | .json a => (g, some (.json { a with behavior := .pull }))
    | _ => (g, none)
  | .toAny => (g, some (.any r.toAny))
  | .toJson =>
    match r with
    | .buffer l t => if tr.serde t then (g.addJson tr.basic t, some (.json ⟨l, t, .pull⟩)) else (g, none)
    | .cloneFrom l t => if tr.serde t then (g.addJson tr.basic t, some (.json ⟨l, t, .clone⟩)) else (g, none)
    | _ => (g, none)
  | .toFetch =>
    match r with
    | .buffer l t => (g, some (.fetch l t .pull .pull))
    | .cloneFrom l t => (g, some (.fetch l t .clone .clone))
    | _ => (g, none)
  | .toBuffer =>
    match r with
    | .cloneFrom l t => (g, some (.buffer l t))
    | .fetch l t _ _ => (g, some (.buffer l t))
    | _ => (g, none)
  | .downcast k =>
    match r with
    | .any a => (g, Refs.downcast g a k)
    | .json a => (g, Refs.downcast g a k)
    | _ => (g, none)
  | .downcastForMessage u =>
    match r with
    | .any a => (g, if a.ty = u then some (.buffer a.loc u) else none)
    | .json a => (g, if a.ty = u then some (.buffer a.loc u) else none)
    | _ => (g, none)
  | .tryFetch u =>
    match r with
    | .any a => (g, Refs.tryFetch g a u)
    | _ => (g, none)
  | .registerClone t => (if tr.clone t then g.addClone t else g, some r)
  | .registerJson t => (if tr.serde t then g.addJson tr.basic t else g, some r)

/-- A sequence of conversions that all succeed. -/
def convs (tr : Traits Ty) : Reg Ty → Ref E Ty → List (Conv Ty) → Option (Reg Ty × Ref E Ty)
  | g, r, [] => some (g, r)
  | g, r, c :: cs =>
    match conv tr g r c with
    | (g', some r') => convs tr g' r' cs
    | (_, none) => none

end

/-! ### What a join takes -/

section
variable {E Ty S : Type} [DecidableEq E] [DecidableEq Ty] [DecidableEq S]
variable {V : Ty → Type} {J : Type}

/-- The buffer entities, each with the storage of its message type. -/
abbrev BufWorld (E S : Type) (V : Ty → Type) := E → Option (Σ t, Storage S (V t))

/-- `get::<BufferStorage<T>>()` of an entity. -/
def BufWorld.storage (w : BufWorld E S V) (e : E) (t : Ty) : Option (Storage S (V t)) :=
  match w e with
  | none => none
  | some b => if h : b.1 = t then some (h ▸ b.2) else none

def BufWorld.put (w : BufWorld E S V) (e : E) {t : Ty} (b : Storage S (V t)) : BufWorld E S V :=
  fun e' => if e' = e then some ⟨t, b⟩ else w e'

/-- `pull_from_buffer`, manage_buffer.rs:81-87, 103-109. `none` is `or_broken`. -/
def pullFrom (w : BufWorld E S V) (e : E) (t : Ty) (s : S) : BufWorld E S V × Option (V t) :=
  match w.storage e t with
  | none => (w, none)
  | some b =>
    let r := b.pull s
    (w.put e r.1, r.2)

/-- `clone_from_buffer`, manage_buffer.rs:33-39, 61-67. -/
def cloneFrom (w : BufWorld E S V) (e : E) (t : Ty) (s : S) : Option (V t) :=
  match w.storage e t with
  | none => none
  | some b => b.oldest s

/-- A value that a join has taken: a message, of static or erased type, or its JSON
form. -/
inductive Item (V : Ty → Type) (J : Type) where
  | value (x : Box V)
  | json (j : J)

def asValue {t : Ty} (x : V t) : Item V J := .value ⟨t, x⟩

/-- `Joining::fetch_for_join`: buffering.rs:272-284 (`Buffer`), 360-373
(`CloneFromBuffer`), fetch_from_buffer.rs:148-168, 219-229, any_buffer.rs:1085-1108,
1224-1242, buffer.rs:208-230, json_buffer.rs:960-981, 1138-1156. `none` is `or_broken`. -/
def fetch (sd : Serde V J) (g : Reg Ty) (w : BufWorld E S V) (s : S) :
    Ref E Ty → BufWorld E S V × Option (Item V J)
  | .buffer l t =>
    let r := pullFrom w l.source t s
    (r.1, r.2.map asValue)
  | .cloneFrom l t => (w, (cloneFrom w l.source t s).map asValue)
  | .fetch l t .pull _ =>
    let r := pullFrom w l.source t s
    (r.1, r.2.map asValue)
  | .fetch l t .clone _ => (w, (cloneFrom w l.source t s).map asValue)
  | .any a =>
    match a.behavior with
    | .pull =>
      let r := pullFrom w a.loc.source a.ty s
      (r.1, r.2.map asValue)
    | .clone =>
      if g.clone a.ty then (w, (cloneFrom w a.loc.source a.ty s).map asValue) else (w, none)
  | .json a =>
    match a.behavior with
    | .pull =>
      let r := pullFrom w a.loc.source a.ty s
      (r.1, (r.2.bind sd.enc).map .json)
    | .clone =>
      match w.storage a.loc.source a.ty with
      | none => (w, none)
      | some b => (w, ((b.newest s).bind sd.enc).map .json)

/-- The fields of a joined value are fetched one after the other with `?`:
derive_buffer.rs:428-457, buffer_map.rs:673-688, buffering.rs:737-748, 855-866,
json_buffer.rs:1256-1271, 1310-1338. What was fetched before a failure is lost. -/
def fetchAll {I : Type} (sd : Serde V J) (g : Reg Ty) (s : S) :
    BufWorld E S V → List (I × Ref E Ty) → BufWorld E S V × Option (List (I × Item V J))
  | w, [] => (w, some [])
  | w, (i, r) :: rest =>
    match fetch sd g w s r with
    | (w', none) => (w', none)
    | (w', some x) =>
      match fetchAll sd g s w' rest with
      | (w'', none) => (w'', none)
      | (w'', some xs) => (w'', some ((i, x) :: xs))

end

/-! ### Layouts -/

/-- `BufferIdentifier`, buffer_map.rs:55-60. -/
inductive Ident where
  | name (n : String)
  | index (i : Nat)
  deriving DecidableEq, Repr

section
variable {E Ty : Type} [DecidableEq E] [DecidableEq Ty]

/-- `BufferMap`, buffer_map.rs:114. The list is in the order in which the hash map
iterates; identifiers occur once. -/
abbrev BufMap (E Ty : Type) := List (Ident × AnyRef E Ty)

def BufMap.get (m : BufMap E Ty) (i : Ident) : Option (AnyRef E Ty) :=
  (m.find? fun p => p.1 == i).map (·.2)

/-- `IncompatibleLayout`, buffer_map.rs:142-150, without the names of the types. -/
structure Compat where
  missing : List Ident
  forbidden : List Ident
  incompatible : List Ident
  deriving DecidableEq, Repr

def Compat.new : Compat := ⟨[], [], []⟩

/-- `as_result`, buffer_map.rs:154-164: `none` is `Ok`. -/
def Compat.asResult (c : Compat) : Option Compat :=
  if c.missing ≠ [] then some c
  else if c.incompatible ≠ [] then some c
  else none

/-- `require_buffer_for_identifier`, buffer_map.rs:184-205, and
`require_buffer_for_borrowed_name`, buffer_map.rs:210-233. -/
def Compat.require (g : Reg Ty) (c : Compat) (i : Ident) (k : Kind Ty) (m : BufMap E Ty) :
    Compat × Option (Ref E Ty) :=
  match m.get i with
  | some a =>
    match downcast g a k with
    | some r => (c, some r)
    | none => ({ c with incompatible := c.incompatible ++ [i] }, none)
  | none => ({ c with missing := c.missing ++ [i] }, none)

/-- The layouts of the library: `BufferMap`; a single reference (`Buffer`,
`CloneFromBuffer`, `FetchFromBuffer`, `AnyBuffer`, `JsonBuffer`); `Vec` and `SmallVec` of
references; `HashMap<String, JsonBuffer>`; `HashMap<BufferIdentifier, JsonBuffer>`; and
the structs made by `derive(Joined)` and `derive(Accessor)`, with the kind of buffer of
each field. -/
inductive Layout (Ty : Type) where
  | map
  | single (k : Kind Ty)
  | vec (k : Kind Ty)
  | jsonMap
  | jsonAny
  | fields (fs : List (String × Kind Ty))

/-- Require a list of identifiers, collecting what could be cast. -/
def requireAll (g : Reg Ty) (m : BufMap E Ty) :
    Compat → List (Ident × Kind Ty) → Compat × List (Ident × Ref E Ty)
  | c, [] => (c, [])
  | c, (i, k) :: rest =>
    match c.require g i k m with
    | (c', some r) =>
      let p := requireAll g m c' rest
      (p.1, (i, r) :: p.2)
    | (c', none) => requireAll g m c' rest

/-- The loop over `buffers.keys()` of `HashMap<String, JsonBuffer>`,
json_buffer.rs:1218-1233. -/
def requireNames (g : Reg Ty) (m : BufMap E Ty) :
    Compat → List Ident → Compat × List (Ident × Ref E Ty)
  | c, [] => (c, [])
  | c, .name n :: rest =>
    match c.require g (.name n) .json m with
    | (c', some r) =>
      let p := requireNames g m c' rest
      (p.1, (.name n, r) :: p.2)
    | (c', none) => requireNames g m c' rest
  | c, .index i :: rest =>
    requireNames g m { c with forbidden := c.forbidden ++ [.index i] } rest

/-- `try_from_buffer_map`: the references by identifier, or the error.

* `map`: buffer_map.rs:648-650.
* `single`: buffer_map.rs:740-750, 762-772, 782-792, any_buffer.rs:330-339,
  json_buffer.rs:1189-1199: always the identifier 0.
* `vec`: buffer_map.rs:802-813, 833-844: the identifiers 0 to `buffers.len() - 1`.
* `jsonMap`: json_buffer.rs:1215-1238.
* `jsonAny`: json_buffer.rs:1278-1291.
* `fields`: derive_buffer.rs:380-400: the error is returned if a field could not be
  cast. The names of the fields are distinct. -/
def tryFrom (g : Reg Ty) (m : BufMap E Ty) : Layout Ty → Except Compat (List (Ident × Ref E Ty))
  | .map => .ok (m.map fun p => (p.1, .any p.2))
  | .single k =>
    match Compat.new.require g (.index 0) k m with
    | (_, some r) => .ok [(.index 0, r)]
    | (c, none) => .error c
  | .vec k =>
    let p := requireAll g m .new ((List.range m.length).map fun i => (.index i, k))
    match p.1.asResult with
    | some c => .error c
    | none => .ok p.2
  | .jsonMap =>
    let p := requireNames g m .new (m.map (·.1))
    match p.1.asResult with
    | some c => .error c
    | none => .ok p.2
  | .jsonAny =>
    let p := requireAll g m .new (m.map fun q => (q.1, .json))
    match p.1.asResult with
    | some c => .error c
    | none => .ok p.2
  | .fields fs =>
    let p := requireAll g m .new (fs.map fun f => (.name f.1, f.2))
    if p.2.length = fs.length then .ok p.2 else .error p.1

/-- The types whose join is made from a buffer map, with their layout (`Joined`):
`HashMap<BufferIdentifier, AnyMessageBox>` (buffer_map.rs:690-692), `Vec<T>` and
`SmallVec` (buffer_map.rs:735-737, 826-828), JSON maps and JSON messages
(json_buffer.rs:1210-1212, 1273-1275), and structs with `derive(Joined)`, whose fields
are fetched by `FetchFromBuffer` unless the user names another kind
(derive_buffer.rs:215-217, 230-256). -/
inductive Joined (Ty : Type) where
  | map
  | vec (t : Ty)
  | jsonMap
  | json
  | struct_ (fs : List (String × (Ty ⊕ Kind Ty)))

def Joined.layout : Joined Ty → Layout Ty
  | .map => .map
  | .vec t => .vec (.buffer t)
  | .jsonMap => .jsonMap
  | .json => .jsonAny
  | .struct_ fs => .fields (fs.map fun f => (f.1, f.2.elim .fetch id))

/-! ### Hints about the message types -/

/-- `MessageTypeHint`: the type is known, or any type will do and messages of static type
`AnyMessageBox` or `JsonMessage` are the fallback. -/
inductive Hint (Ty : Type) where
  | exact (t : Ty)
  | anyMessage
  | jsonMessage
  deriving DecidableEq, Repr

/-- `AsAnyBuffer::message_type_hint`, any_buffer.rs:211-236, fetch_from_buffer.rs:120-122,
json_buffer.rs:176-178. -/
def Kind.hint : Kind Ty → Hint Ty
  | .buffer t => .exact t
  | .cloneFrom t => .exact t
  | .fetch t => .exact t
  | .any => .anyMessage
  | .json => .jsonMessage

/-- `MessageTypeHintEvaluation`, buffer_map.rs:247-252. -/
structure Eval (Ty : Type) where
  unevaluated : List Ident
  evaluated : List (Ident × Hint Ty)
  compat : Compat

/-- `set_hint`, buffer_map.rs:315-326; `exact` and `fallback` are special cases. -/
def Eval.setHint (v : Eval Ty) (i : Ident) (h : Hint Ty) : Eval Ty :=
  if i ∈ v.unevaluated then
    { v with
      unevaluated := v.unevaluated.filter (· ≠ i)
      evaluated := v.evaluated ++ [(i, h)] }
  else
    { v with
      compat := { v.compat with missing := v.compat.missing ++ [i] } }

/-- The `retain` of `next_index_required` and `next_name_required`,
buffer_map.rs:272-302. -/
def Eval.retain (v : Eval Ty) (p : Ident → Bool) : Eval Ty :=
  { v with
    unevaluated := v.unevaluated.filter p
    compat := { v.compat with forbidden := v.compat.forbidden ++ v.unevaluated.filter (! p ·) } }

/-- `while let Some(identifier) = evaluation.next_…() { evaluation.set_hint(…) }`. Each
round removes an identifier, so the number of identifiers is enough fuel. -/
def Eval.loop (p : Ident → Bool) (h : Hint Ty) : Nat → Eval Ty → Eval Ty
  | 0, v => v.retain p
  | n + 1, v =>
    let v := v.retain p
    match v.unevaluated with
    | [] => v
    | i :: _ => (v.setHint i h).loop p h n

/-- `evaluate`, buffer_map.rs:329-335. -/
def Eval.evaluate (v : Eval Ty) : Except Compat (List (Ident × Hint Ty)) :=
  let c : Compat := { v.compat with forbidden := v.compat.forbidden ++ v.unevaluated }
  match c.asResult with
  | some c => .error c
  | none => .ok v.evaluated

def Ident.isIndex : Ident → Bool
  | .index _ => true
  | .name _ => false

def Ident.isName : Ident → Bool
  | .index _ => false
  | .name _ => true

/-- `get_buffer_message_type_hints`: buffer_map.rs:652-664, 752-758, 774-778, 794-798,
815-823, 846-854, any_buffer.rs:341-347, json_buffer.rs:1201-1207, 1239-1247, 1293-1301,
derive_buffer.rs:402-411. The list of identifiers is the hash set in its order of
iteration. -/
def hints (ids : List Ident) : Layout Ty → Except Compat (List (Ident × Hint Ty))
  | .map => (Eval.loop (fun _ => true) .anyMessage ids.length ⟨ids, [], .new⟩).evaluate
  | .single k => (Eval.setHint ⟨ids, [], .new⟩ (.index 0) k.hint).evaluate
  | .vec k => (Eval.loop Ident.isIndex k.hint ids.length ⟨ids, [], .new⟩).evaluate
  | .jsonMap => (Eval.loop Ident.isName .jsonMessage ids.length ⟨ids, [], .new⟩).evaluate
  | .jsonAny => (Eval.loop (fun _ => true) .jsonMessage ids.length ⟨ids, [], .new⟩).evaluate
  | .fields fs =>
    Eval.evaluate (fs.foldl (fun v f => Eval.setHint v (.name f.1) f.2.hint)
      ({ unevaluated := ids, evaluated := [], compat := .new } : Eval Ty))

end

/-! ### A join into a JSON message -/

/-- `serde_json::Value`, as far as a join produces it: the values of the messages are
opaque. Objects are lists of entries with distinct names, in any order. -/
inductive JsonVal (J : Type) where
  | null
  | msg (j : J)
  | array (xs : List (JsonVal J))
  | object (fs : List (String × JsonVal J))

/-- `Map::insert`. -/
def insertField {A : Type} (fs : List (String × A)) (n : String) (x : A) : List (String × A) :=
  if fs.any (·.1 = n) then fs.map fun f => if f.1 = n then (n, x) else f else fs ++ [(n, x)]

/-- `array.resize(index + 1, Null)` if it is too short, and the assignment,
json_buffer.rs:1323-1329. -/
def putIndex {A : Type} (null : A) (xs : List A) (i : Nat) (x : A) : List A :=
  (if xs.length ≤ i then xs ++ List.replicate (i + 1 - xs.length) null else xs).set i x

/-- The loop of json_buffer.rs:1320-1338 over what was fetched. -/
def sortOut {J : Type} : List (Ident × J) → List (String × JsonVal J) × List (JsonVal J) →
    List (String × JsonVal J) × List (JsonVal J)
  | [], acc => acc
  | (.index i, j) :: rest, (o, a) => sortOut rest (o, putIndex .null a i (.msg j))
  | (.name n, j) :: rest, (o, a) => sortOut rest (insertField o n (.msg j), a)

/-- The joined message, json_buffer.rs:1340-1361. -/
def assemble {J : Type} (xs : List (Ident × J)) : JsonVal J :=
  let r := sortOut xs ([], [])
  if r.1 ≠ [] ∧ r.2 ≠ [] then .object [("array", .array r.2), ("object", .object r.1)]
  else if r.1 ≠ [] then .object r.1
  else if r.2 ≠ [] then .array r.2
  else .null

end Verif.Refs
