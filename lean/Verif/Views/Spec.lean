import Verif.Views.Model
import Verif.Buffer.Spec

/-
Specification of the accesses to a buffer: which call on the typed buffer a call
through an erased or JSON handle stands for, and how its result is shown. Written
from the documentation of the methods.
-/
namespace Verif.Views

open Verif.Buffer (Storage Out Op SpecState specStep)

/-- Either a call does nothing to the messages and has a fixed result, or it stands for
an operation on the queue of messages, whose result is shown in some way. -/
inductive Asks (T O : Type) where
  | nothing (o : O)
  | op (o : Op T) (result : Out T → O)

/-- The typed handle. -/
def askTyped {T : Type} : TCall T → Asks T (Out T)
  | .allowClosedLoops => .nothing .unit
  | .pulse => .nothing .unit
  | .iter => .op .readAll id
  | .oldest => .op .oldest id
  | .newest => .op .newest id
  | .get i => .op (.get i) id
  | .len => .op .count id
  | .iterMut g => .op (.iterMut g) id
  | .oldestMut g => .op (.oldestMut g) id
  | .newestMut g => .op (.newestMut g) id
  | .newestMutOrElse v g => .op (.newestMutOrElse v g) id
  | .getMut i g => .op (.getMut i g) id
  | .drainAll => .op .drainAll id
  | .drain lo hi => .op (.drain lo hi) id
  | .pull => .op .pull id
  | .pullNewest => .op .pullNewest id
  | .push v => .op (.push v) id
  | .pushAsOldest v => .op (.pushAsOldest v) id

section
variable {Ty : Type} [DecidableEq Ty] {V : Ty → Type} {J : Type}

/-- A message seen through an erased handle is the message with its type. -/
def boxed {t : Ty} : Out (V t) → AOut V
  | .unit => .unit
  | .item v => .item (v.map fun x => ⟨t, x⟩)
  | .items vs => .items (vs.map fun x => ⟨t, x⟩)
  | .num n => .num n
  | .panic => .panic

/-- Offering a message through an erased handle: it is accepted as the typed message
if the types agree and given back otherwise. -/
def offer (t : Ty) (x : Box V) (o : V t → Op (V t)) : Asks (V t) (AOut V) :=
  if h : x.1 = t then .op (o (h ▸ x.2)) boxed else .nothing (.refused x)

/-- A write offered through an erased handle is the typed write if the types agree and
leaves the message alone otherwise. -/
def writing (t : Ty) : (Σ u, V u → V u) → V t → V t
  | ⟨u, f⟩ => if h : u = t then h ▸ f else id

/-- The erased handle. -/
def askAny (t : Ty) : ACall V → Asks (V t) (AOut V)
  | .allowClosedLoops => .nothing .unit
  | .pulse => .nothing .unit
  | .oldest => .op .oldest boxed
  | .newest => .op .newest boxed
  | .get i => .op (.get i) boxed
  | .len => .op .count boxed
  | .oldestMut w => .op (.oldestMut (writing t w)) boxed
  | .newestMut w => .op (.newestMut (writing t w)) boxed
  | .getMut i w => .op (.getMut i (writing t w)) boxed
  | .drainAll => .op .drainAll boxed
  | .drain lo hi => .op (.drain lo hi) boxed
  | .pull => .op .pull boxed
  | .pullNewest => .op .pullNewest boxed
  | .push x => offer t x .push
  | .pushAny x => offer t x .push
  | .pushAsOldest x => offer t x .pushAsOldest
  | .pushAnyAsOldest x => offer t x .pushAsOldest

/-- A message seen through a JSON handle is its serialised form; an error if it has
none. -/
def shown (sd : Serde V J) {t : Ty} : Option (V t) → JOut V J
  | none => .item none
  | some x => (sd.enc x).elim .error fun j => .item (some j)

def asJson (sd : Serde V J) {t : Ty} : Out (V t) → JOut V J
  | .unit => .unit
  | .item v => shown sd v
  | .items vs => .items (vs.map sd.enc)
  | .num n => .num n
  | .panic => .panic

/-- A message seen as a value of another type `u`: its serialised form is read as a
`u`. -/
def shownAs (sd : Serde V J) (u : Ty) {t : Ty} : Option (V t) → JOut V J
  | none => .typed none
  | some x =>
    ((sd.enc x).bind (sd.dec u)).elim .error fun y => .typed (some ⟨u, y⟩)

def itemAs (sd : Serde V J) (u : Ty) {t : Ty} : Out (V t) → JOut V J
  | .item v => shownAs sd u v
  | _ => .unit

/-- The new value a `JsonMut` gives to a message: the deserialised one. The message
stays as it is if something cannot be converted: the new message, or for `replace` the
old one, which is handed out, or for `modify` the old one, which is the input. -/
def jsonWrite (sd : Serde V J) (t : Ty) : JsonMutUse V J → V t → V t
  | .leave, x => x
  | .serialize, x => x
  | .deserializeInto _, x => x
  | .replace j, x => if (sd.enc x).isSome then (sd.dec t j).getD x else x
  | .insert j, x => (sd.dec t j).getD x
  | .modify f, x => ((sd.enc x).bind fun j => sd.dec t (f j)).getD x

/-- What the holder of a `JsonMut` sees, given the message `x` before its use. -/
def jsonSees (sd : Serde V J) {t : Ty} (x : V t) : JsonMutUse V J → JOut V J
  | .leave => .unit
  | .serialize => shown sd (some x)
  | .deserializeInto u => shownAs sd u (some x)
  | .replace j => if (sd.dec t j).isSome then shown sd (some x) else .error
  | .insert j => if (sd.dec t j).isSome then .unit else .error
  | .modify f => if ((sd.enc x).bind fun j => sd.dec t (f j)).isSome then .unit else .error

def seenThrough (sd : Serde V J) (u : JsonMutUse V J) {t : Ty} : Out (V t) → JOut V J
  | .item (some x) => jsonSees sd x u
  | _ => .item none

/-- Offering a JSON message: it is accepted as the deserialised message. -/
def offerJson (sd : Serde V J) (t : Ty) (j : Option J) (o : V t → Op (V t)) :
    Asks (V t) (JOut V J) :=
  match j.bind (sd.dec t) with
  | some v => .op (o v) (asJson sd)
  | none => .nothing .error

/-- The JSON handle. -/
def askJson (sd : Serde V J) (t : Ty) : JCall V J → Asks (V t) (JOut V J)
  | .allowClosedLoops => .nothing .unit
  | .pulse => .nothing .unit
  | .iter => .op .readAll (asJson sd)
  | .oldest => .op .oldest (asJson sd)
  | .newest => .op .newest (asJson sd)
  | .get i => .op (.get i) (asJson sd)
  | .len => .op .count (asJson sd)
  | .oldestMut u => .op (.oldestMut (jsonWrite sd t u)) (seenThrough sd u)
  | .newestMut u => .op (.newestMut (jsonWrite sd t u)) (seenThrough sd u)
  | .getMut i u => .op (.getMut i (jsonWrite sd t u)) (seenThrough sd u)
  | .drainAll => .op .drainAll (asJson sd)
  | .drain lo hi => .op (.drain lo hi) (asJson sd)
  | .pull => .op .pull (asJson sd)
  | .pullAs u => .op .pull (itemAs sd u)
  | .pullNewest => .op .pullNewest (asJson sd)
  | .pullNewestAs u => .op .pullNewest (itemAs sd u)
  | .push x => offerJson sd t (sd.enc x.2) .push
  | .pushJson j => offerJson sd t (some j) .push
  | .pushAsOldest x => offerJson sd t (sd.enc x.2) .pushAsOldest
  | .pushJsonAsOldest j => offerJson sd t (some j) .pushAsOldest

def Asks.via {T O O' : Type} (f : O → O') : Asks T O → Asks T O'
  | .nothing o => .nothing (f o)
  | .op o r => .op o fun x => f (r x)

/-- What a call through any handle asks. -/
def ask (sd : Serde V J) {t : Ty} : Call V J t → Asks (V t) (Seen V J t)
  | .typed c => (askTyped c).via .typed
  | .any c => (askAny t c).via .any
  | .json c => (askJson sd t c).via .json

/-- What happens to a buffer: accesses through keys, and what the workflow does with it
on its own (deliver messages, join, begin and end sessions). -/
inductive Event (S A : Type) (V : Ty → Type) (J : Type) (t : Ty) where
  | access (a : Access S A V J t)
  | flow (s : S) (o : Op (V t))

variable {S A : Type} [DecidableEq S]

/-- The code, for one event. -/
def event (sd : Serde V J) {t : Ty} (w : World S A V t) :
    Event S A V J t → World S A V t × List (Seen V J t)
  | .access a => access sd w a
  | .flow s o => ({ w with storage := (Verif.Buffer.step w.storage s o).1 }, [])

def events (sd : Serde V J) {t : Ty} :
    World S A V t → List (Event S A V J t) → World S A V t × List (List (Seen V J t))
  | w, [] => (w, [])
  | w, e :: rest =>
    let r := event sd w e
    let r' := events sd r.1 rest
    (r'.1, r.2 :: r'.2)

/-- The specification over a typed buffer `b`, `next` being one call on it: a call
through a key does what it asks for. -/
def specCalls (sd : Serde V J) {t : Ty} {B : Type} (next : B → Op (V t) → B × Out (V t)) :
    B → List (Call V J t) → B × List (Seen V J t)
  | b, [] => (b, [])
  | b, c :: rest =>
    match ask sd c with
    | .nothing o =>
      let r := specCalls sd next b rest
      (r.1, o :: r.2)
    | .op o show_ =>
      let r := next b o
      let r' := specCalls sd next r.1 rest
      (r'.1, show_ r.2 :: r'.2)

def specEvents (sd : Serde V J) {t : Ty} {B : Type} (next : B → S → Op (V t) → B × Out (V t)) :
    B → List (Event S A V J t) → B × List (List (Seen V J t))
  | b, [] => (b, [])
  | b, .access a :: rest =>
    let r := specCalls sd (fun b o => next b a.session o) b a.calls
    let r' := specEvents sd next r.1 rest
    (r'.1, r.2 :: r'.2)
  | b, .flow s o :: rest =>
    let r' := specEvents sd next (next b s o).1 rest
    (r'.1, [] :: r'.2)

/-- Pushing as oldest through a JSON handle. -/
def Call.isJsonAsOldest {t : Ty} : Call V J t → Bool
  | .json (.pushAsOldest _) => true
  | .json (.pushJsonAsOldest _) => true
  | _ => false

/-- `push_any` and `push_any_as_oldest`. -/
def Call.isPushAny {t : Ty} : Call V J t → Bool
  | .any (.pushAny _) => true
  | .any (.pushAnyAsOldest _) => true
  | _ => false

def Call.isPulse {t : Ty} : Call V J t → Bool
  | .typed .pulse => true
  | .any .pulse => true
  | .json .pulse => true
  | _ => false

def Call.isAllowClosedLoops {t : Ty} : Call V J t → Bool
  | .typed .allowClosedLoops => true
  | .any .allowClosedLoops => true
  | .json .allowClosedLoops => true
  | _ => false

/-- Calls that only look at the buffer. -/
def Call.isRead {t : Ty} : Call V J t → Bool
  | .typed .iter | .typed .oldest | .typed .newest | .typed (.get _) | .typed .len => true
  | .any .oldest | .any .newest | .any (.get _) | .any .len => true
  | .json .iter | .json .oldest | .json .newest | .json (.get _) | .json .len => true
  | .json (.oldestMut .serialize) | .json (.newestMut .serialize)
  | .json (.getMut _ .serialize) => true
  | c => c.isAllowClosedLoops

/-- The calls of an event. -/
def Event.calls {t : Ty} : Event S A V J t → List (Call V J t)
  | .access a => a.calls
  | .flow _ _ => []

/-- The operations on the queue that an event asks for. -/
def Event.ops (sd : Serde V J) {t : Ty} : Event S A V J t → List (Op (V t))
  | .access a => a.calls.filterMap fun c =>
      match ask sd c with
      | .nothing _ => none
      | .op o _ => some o
  | .flow _ o => [o]

end
end Verif.Views
