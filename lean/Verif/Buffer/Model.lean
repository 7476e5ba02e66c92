/-
Model of the per-session storage behind a workflow buffer.

Source: /repo/src/buffer/buffer_storage.rs, /repo/src/buffer.rs.
-/
namespace Verif.Buffer

/-- `RetentionPolicy`, src/buffer.rs:296-305. `usize` is modelled by `Nat`. -/
inductive Retention where
  | keepLast (n : Nat)
  | keepFirst (n : Nat)
  | keepAll
  deriving DecidableEq, Repr

/-- `impl Default for RetentionPolicy`, src/buffer.rs:307-311. -/
def Retention.default : Retention := .keepLast 1

/-- `BufferStorage<T>`, src/buffer/buffer_storage.rs:33-44. The hash map from
session to `SmallVec` is a function to `Option (List T)`; `none` means that the
session has no entry. As in the code the vector is a *reverse* queue: index 0 is
the newest value, the last index is the oldest. -/
structure Storage (S T : Type) where
  retention : Retention
  queues : S → Option (List T)

variable {S T : Type} [DecidableEq S]

/-- `BufferStorage::new`, buffer_storage.rs:253-258. -/
def Storage.new (r : Retention) : Storage S T := { retention := r, queues := fun _ => none }

/-- Writing one entry of the hash map (`HashMap::insert` / mutation through
`get_mut`). -/
def Storage.set (b : Storage S T) (s : S) (q : Option (List T)) : Storage S T :=
  { b with queues := fun s' => if s' = s then q else b.queues s' }

/-- `SmallVec::pop`: remove the last element of the vector. -/
def vecPop (q : List T) : Option T × List T := (q.getLast?, q.dropLast)

/-- `count`, buffer_storage.rs:47-52. -/
def Storage.count (b : Storage S T) (s : S) : Nat :=
  match b.queues s with
  | some q => q.length
  | none => 0

/-- `impl_push`, buffer_storage.rs:58-88. Returns the new queue and the value
that is handed back. -/
def implPush (q : List T) (r : Retention) (v : T) : List T × Option T :=
  match r with
  | .keepFirst n =>
    if q.length ≥ n then (q, some v) else (v :: q, none)
  | .keepLast n =>
    if n > 0 ∧ q.length ≥ n then (v :: (vecPop q).2, (vecPop q).1)
    else if n = 0 then (q, some v)
    else (v :: q, none)
  | .keepAll => (v :: q, none)

/-- `force_push`, buffer_storage.rs:90-96 (creates the session if needed). -/
def Storage.forcePush (b : Storage S T) (s : S) (v : T) : Storage S T × Option T :=
  let q := (b.queues s).getD []
  let p := implPush q b.retention v
  (b.set s (some p.1), p.2)

/-- `push`, buffer_storage.rs:98-104 (refused when the session is absent). -/
def Storage.push (b : Storage S T) (s : S) (v : T) : Storage S T × Option T :=
  match b.queues s with
  | none => (b, some v)
  | some q =>
    let p := implPush q b.retention v
    (b.set s (some p.1), p.2)

/-- The retention match of `push_as_oldest`, buffer_storage.rs:111-130. -/
def implPushOldest (q : List T) (r : Retention) (v : T) : List T × Option T :=
  match r with
  | .keepFirst n =>
    if n > 0 ∧ q.length ≥ n then (q.tail ++ [v], q.head?) else (q ++ [v], none)
  | .keepLast n =>
    if q.length ≥ n then (q, some v) else (q ++ [v], none)
  | .keepAll => (q ++ [v], none)

/-- `push_as_oldest`, buffer_storage.rs:106-131. -/
def Storage.pushAsOldest (b : Storage S T) (s : S) (v : T) : Storage S T × Option T :=
  match b.queues s with
  | none => (b, some v)
  | some q =>
    let p := implPushOldest q b.retention v
    (b.set s (some p.1), p.2)

/-- `pull`, buffer_storage.rs:133-135. -/
def Storage.pull (b : Storage S T) (s : S) : Storage S T × Option T :=
  match b.queues s with
  | none => (b, none)
  | some q => (b.set s (some (vecPop q).2), (vecPop q).1)

/-- `pull_newest`, buffer_storage.rs:137-144. -/
def Storage.pullNewest (b : Storage S T) (s : S) : Storage S T × Option T :=
  match b.queues s with
  | none => (b, none)
  | some [] => (b, none)
  | some (v :: q) => (b.set s (some q), some v)

/-- `consume`, buffer_storage.rs:146-155. -/
def Storage.consume (b : Storage S T) (s : S) : Storage S T × List T :=
  match b.queues s with
  | none => (b, [])
  | some q => (b.set s (some []), q.reverse)

/-- `clear_session`, buffer_storage.rs:157-159. -/
def Storage.clearSession (b : Storage S T) (s : S) : Storage S T := b.set s none

/-- `ensure_session`, buffer_storage.rs:161-163. -/
def Storage.ensureSession (b : Storage S T) (s : S) : Storage S T :=
  b.set s (some ((b.queues s).getD []))

/-- `iter`, buffer_storage.rs:226-233: the values in the order the iterator
yields them. -/
def Storage.iter (b : Storage S T) (s : S) : List T :=
  match b.queues s with
  | none => []
  | some q => q.reverse

/-- `oldest`, buffer_storage.rs:235-237. -/
def Storage.oldest (b : Storage S T) (s : S) : Option T :=
  (b.queues s).bind (·.getLast?)

/-- `newest`, buffer_storage.rs:239-241. -/
def Storage.newest (b : Storage S T) (s : S) : Option T :=
  (b.queues s).bind (·.head?)

/-- `get`, buffer_storage.rs:243-251. -/
def Storage.get (b : Storage S T) (s : S) (index : Nat) : Option T :=
  match b.queues s with
  | none => none
  | some q => if q.length ≤ index then none else q[q.length - index - 1]?

/-- `iter_mut`, buffer_storage.rs:165-175, used to overwrite the `i`-th yielded
value `x` by `g i x`. The mutable borrows of the code are modelled by applying
the writes of the caller at once. -/
def Storage.iterMut (b : Storage S T) (s : S) (g : Nat → T → T) : Storage S T :=
  match b.queues s with
  | none => b
  | some q => b.set s (some (q.reverse.mapIdx g).reverse)

/-- `oldest_mut`, buffer_storage.rs:177-181, followed by the write `g`. The
result is the value seen through the borrow. -/
def Storage.oldestMut (b : Storage S T) (s : S) (g : T → T) : Storage S T × Option T :=
  match b.queues s with
  | none => (b, none)
  | some q => (b.set s (some (q.modify (q.length - 1) g)), q.getLast?)

/-- `newest_mut`, buffer_storage.rs:183-187, followed by the write `g`. -/
def Storage.newestMut (b : Storage S T) (s : S) (g : T → T) : Storage S T × Option T :=
  match b.queues s with
  | none => (b, none)
  | some q => (b.set s (some (q.modify 0 g)), q.head?)

/-- `newest_mut_or_else`, buffer_storage.rs:189-201, followed by the write `g`.
The value returned by the inner `impl_push` is dropped by the code. -/
def Storage.newestMutOrElse (b : Storage S T) (s : S) (v : T) (g : T → T) :
    Storage S T × Option T :=
  match b.queues s with
  | none => (b, none)
  | some q =>
    let q' := if q.isEmpty then (implPush q b.retention v).1 else q
    (b.set s (some (q'.modify 0 g)), q'.head?)

/-- `get_mut`, buffer_storage.rs:203-211, followed by the write `g`. -/
def Storage.getMut (b : Storage S T) (s : S) (index : Nat) (g : T → T) :
    Storage S T × Option T :=
  match b.queues s with
  | none => (b, none)
  | some q =>
    if q.length ≤ index then (b, none)
    else (b.set s (some (q.modify (q.length - index - 1) g)), q[q.length - index - 1]?)

/-- `drain` with the full range `..`, buffer_storage.rs:213-224. The iterator is
assumed to be dropped (dropping it removes the whole range, as `SmallVec::drain`
does). -/
def Storage.drainAll (b : Storage S T) (s : S) : Storage S T × List T :=
  match b.queues s with
  | none => (b, [])
  | some q => (b.set s (some []), q.reverse)

/-- `drain` with a range `lo..hi`, buffer_storage.rs:213-224. `SmallVec::drain`
panics when `lo > hi` or `hi > len`; a panic is the result `none`. The indices are
indices of the reverse queue. -/
def Storage.drain (b : Storage S T) (s : S) (lo hi : Nat) : Option (Storage S T × List T) :=
  match b.queues s with
  | none => some (b, [])
  | some q =>
    if lo ≤ hi ∧ hi ≤ q.length then
      some (b.set s (some (q.take lo ++ q.drop hi)), ((q.take hi).drop lo).reverse)
    else none

/-- The operations that can be performed on a buffer: `BufferMut`/`BufferView`
(src/buffer.rs:595-805), the workflow itself (`forcePush`, `clear`, `ensure`) and
join (`pull`, `consume`). -/
inductive Op (T : Type) where
  | forcePush (v : T)
  | push (v : T)
  | pushAsOldest (v : T)
  | pull
  | pullNewest
  | consume
  | clear
  | ensure
  | drainAll
  | drain (lo hi : Nat)
  | readAll
  | count
  | oldest
  | newest
  | get (i : Nat)
  | iterMut (g : Nat → T → T)
  | oldestMut (g : T → T)
  | newestMut (g : T → T)
  | newestMutOrElse (v : T) (g : T → T)
  | getMut (i : Nat) (g : T → T)

/-- What the caller observes. -/
inductive Out (T : Type) where
  | unit
  | item (v : Option T)
  | items (vs : List T)
  | num (n : Nat)
  | panic
  deriving DecidableEq, Repr

/-- One call on session `s`. A panicking call leaves the storage unchanged. -/
def step (b : Storage S T) (s : S) : Op T → Storage S T × Out T
  | .forcePush v => let r := b.forcePush s v; (r.1, .item r.2)
  | .push v => let r := b.push s v; (r.1, .item r.2)
  | .pushAsOldest v => let r := b.pushAsOldest s v; (r.1, .item r.2)
  | .pull => let r := b.pull s; (r.1, .item r.2)
  | .pullNewest => let r := b.pullNewest s; (r.1, .item r.2)
  | .consume => let r := b.consume s; (r.1, .items r.2)
  | .clear => (b.clearSession s, .unit)
  | .ensure => (b.ensureSession s, .unit)
  | .drainAll => let r := b.drainAll s; (r.1, .items r.2)
  | .drain lo hi =>
    match b.drain s lo hi with
    | some r => (r.1, .items r.2)
    | none => (b, .panic)
  | .readAll => (b, .items (b.iter s))
  | .count => (b, .num (b.count s))
  | .oldest => (b, .item (b.oldest s))
  | .newest => (b, .item (b.newest s))
  | .get i => (b, .item (b.get s i))
  | .iterMut g => (b.iterMut s g, .unit)
  | .oldestMut g => let r := b.oldestMut s g; (r.1, .item r.2)
  | .newestMut g => let r := b.newestMut s g; (r.1, .item r.2)
  | .newestMutOrElse v g => let r := b.newestMutOrElse s v g; (r.1, .item r.2)
  | .getMut i g => let r := b.getMut s i g; (r.1, .item r.2)

/-- A whole history: calls on any sessions, with their observations. -/
def run (b : Storage S T) : List (S × Op T) → Storage S T × List (Out T)
  | [] => (b, [])
  | (s, op) :: rest =>
    let r := step b s op
    let r' := run r.1 rest
    (r'.1, r.2 :: r'.2)

end Verif.Buffer
