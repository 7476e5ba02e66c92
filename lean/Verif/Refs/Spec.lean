import Verif.Refs.Model

/-
What a user of references to buffers relies on: which buffer a reference stands for, what
a join takes through it, and which maps of buffers a layout accepts.
-/
namespace Verif.Refs

open Verif.Buffer (Storage)
open Verif.Views (Box Serde)

section
variable {E Ty : Type} [DecidableEq E] [DecidableEq Ty]

/-! ### References -/

/-- The buffer that a reference stands for. -/
def Ref.loc : Ref E Ty → Loc E
  | .buffer l _ => l
  | .cloneFrom l _ => l
  | .fetch l _ _ _ => l
  | .any a => a.loc
  | .json a => a.loc

/-- The message type that a reference assumes. -/
def Ref.ty : Ref E Ty → Ty
  | .buffer _ t => t
  | .cloneFrom _ t => t
  | .fetch _ t _ _ => t
  | .any a => a.ty
  | .json a => a.ty

/-- Whether a join is to take the message out of the buffer. -/
def Ref.Joins : Ref E Ty → Behavior → Prop
  | .buffer _ _, b => b = .pull
  | .cloneFrom _ _, b => b = .clone
  | .fetch _ _ f b', b => f = b ∧ b' = b
  | .any a, b => a.behavior = b
  | .json a, b => a.behavior = b

/-- The Rust type of a reference. -/
def Ref.kind : Ref E Ty → Kind Ty
  | .buffer _ t => .buffer t
  | .cloneFrom _ t => .cloneFrom t
  | .fetch _ t _ _ => .fetch t
  | .any _ => .any
  | .json _ => .json

/-- What a sequence of conversions asks of later joins, starting from `b`: the last
request counts; a `Buffer` pulls and a `CloneFromBuffer` clones. -/
def asked : Behavior → List (Conv Ty) → Behavior
  | b, [] => b
  | _, .joinByCloning :: cs => asked .clone cs
  | _, .joinByPulling :: cs => asked .pull cs
  | _, .toBuffer :: cs => asked .pull cs
  | _, .downcastForMessage _ :: cs => asked .pull cs
  | _, .downcast (.buffer _) :: cs => asked .pull cs
  | _, .downcast (.cloneFrom _) :: cs => asked .clone cs
  | b, _ :: cs => asked b cs

/-- Every `FetchFromBuffer::<u>::try_from` names the type `t`. -/
def rightTypes (t : Ty) (cs : List (Conv Ty)) : Prop := ∀ u, Conv.tryFetch u ∈ cs → u = t

/-- `JsonBuffer::join_by_cloning` is called: `json` says whether the reference is a
`JsonBuffer`. -/
def clonesJson : Bool → List (Conv Ty) → Bool
  | _, [] => false
  | json, .joinByCloning :: cs => json || clonesJson false cs
  | _, .toJson :: cs => clonesJson true cs
  | _, .downcast .json :: cs => clonesJson true cs
  | json, .joinByPulling :: cs => clonesJson json cs
  | json, .registerClone _ :: cs => clonesJson json cs
  | json, .registerJson _ :: cs => clonesJson json cs
  | _, _ :: cs => clonesJson false cs

/-- A register that knows at least as much. -/
def Reg.le (g g' : Reg Ty) : Prop :=
  (∀ t, g.clone t = true → g'.clone t = true) ∧ (∀ t, g.json t = true → g'.json t = true)

/-! ### Joins -/

variable {S : Type} {V : Ty → Type} {J : Type}

/-- The messages of every buffer and session, oldest first. -/
def stock (w : BufWorld E S V) (e : E) (s : S) : List (Box V) :=
  match w e with
  | none => []
  | some ⟨t, b⟩ => (b.iter s).map fun x => ⟨t, x⟩

/-- The entity is a buffer of messages of type `t`. -/
def IsBuffer (w : BufWorld E S V) (e : E) (t : Ty) : Prop := ∃ b : Storage S (V t), w e = some ⟨t, b⟩

/-- A message as the join shows it, if it can be shown: a `JsonBuffer` shows JSON. -/
def shown (sd : Serde V J) (k : Kind Ty) (x : Box V) : Option (Item V J) :=
  match k with
  | .json => (sd.enc x.2).map .json
  | _ => some (.value x)

/-- What is left of `st` when the oldest message of buffer `e` for session `s` has been
taken as `b` says. -/
def after [DecidableEq S] (st : E → S → List (Box V)) (e : E) (s : S) (b : Behavior) :
    E → S → List (Box V) :=
  fun e' s' => if e' = e ∧ s' = s ∧ b = .pull then (st e' s').tail else st e' s'

/-- A join through reference `r` to buffer `e`, asked to take the message as `b` says,
takes the oldest message. It fails, and changes nothing, if there is none or if it cannot
be shown. -/
def TakesOldest [DecidableEq S] (sd : Serde V J) (r : Ref E Ty) (e : E) (b : Behavior) (s : S)
    (w w' : BufWorld E S V) (res : Option (Item V J)) : Prop :=
  match (stock w e s).head?.bind (shown sd r.kind) with
  | none => res = none ∧ stock w' = stock w
  | some i => res = some i ∧ stock w' = after (stock w) e s b

/-! ### Layouts -/

/-- What a layout needs from a map of buffers. -/
def needs (m : BufMap E Ty) : Layout Ty → List (Ident × Kind Ty)
  | .map => m.map fun p => (p.1, .any)
  | .single k => [(.index 0, k)]
  | .vec k => (List.range m.length).map fun i => (.index i, k)
  | .jsonMap => (m.filter fun p => p.1.isName).map fun p => (p.1, .json)
  | .jsonAny => m.map fun p => (p.1, .json)
  | .fields fs => fs.map fun f => (.name f.1, f.2)

/-- A buffer can be referred to as the kind says: the message type agrees, cloning is
known for a type that is to be cloned, and JSON for a type that is to be shown as
JSON. -/
def Castable (g : Reg Ty) (a : AnyRef E Ty) : Kind Ty → Prop
  | .any => True
  | .json => g.json a.ty = true
  | .buffer u => a.ty = u
  | .cloneFrom u => a.ty = u ∧ g.clone u = true
  | .fetch u => a.ty = u ∧ (a.behavior = .clone → g.clone u = true)

/-- The buffer that a map has for an identifier. -/
def Has (m : BufMap E Ty) (i : Ident) (a : AnyRef E Ty) : Prop := (i, a) ∈ m

/-- The map has no buffer for the identifier. -/
def Missing (m : BufMap E Ty) (i : Ident) : Prop := ∀ a, ¬ Has m i a

/-- The map has a buffer for the identifier that cannot be what is needed. -/
def Unfit (g : Reg Ty) (m : BufMap E Ty) (i : Ident) (k : Kind Ty) : Prop :=
  ∃ a, Has m i a ∧ ¬ Castable g a k

/-- How a reference of a kind joins if it was made from one that joins as `b` says. -/
def Kind.keeps (b : Behavior) : Kind Ty → Behavior
  | .buffer _ => .pull
  | .cloneFrom _ => .clone
  | _ => b

/-- A reference of kind `k` to the buffer of `a`. -/
def RefersTo (a : AnyRef E Ty) (k : Kind Ty) (r : Ref E Ty) : Prop :=
  r.kind = k ∧ r.loc = a.loc ∧ r.ty = a.ty ∧ r.Joins (k.keeps a.behavior)

/-- The references that a layout is to hold. -/
def Holds (m : BufMap E Ty) (l : Layout Ty) (rs : List (Ident × Ref E Ty)) : Prop :=
  rs.map (·.1) = (needs m l).map (·.1) ∧
  ∀ i k r, (i, k) ∈ needs m l → (i, r) ∈ rs → ∃ a, Has m i a ∧ RefersTo a k r

/-- Everything the layout needs is there. -/
def Supplied (g : Reg Ty) (m : BufMap E Ty) (l : Layout Ty) : Prop :=
  ∀ i k, (i, k) ∈ needs m l → ∃ a, Has m i a ∧ Castable g a k

/-- Nothing is there that the layout has no place for. -/
def NothingElse (m : BufMap E Ty) (l : Layout Ty) : Prop :=
  ∀ i a, Has m i a → i ∈ (needs m l).map (·.1)

/-- A map of buffers has each identifier once. -/
def BufMap.Distinct (m : BufMap E Ty) : Prop := (m.map (·.1)).Nodup

/-- The fields of a struct have different names. -/
def Layout.Proper : Layout Ty → Prop
  | .fields fs => (fs.map (·.1)).Nodup
  | _ => True

/-- The buffers of a map are different buffers. -/
def BufMap.Separate (m : BufMap E Ty) : Prop := (m.map (·.2.loc.source)).Nodup

/-- Cloning is known for the types of all buffers that are to be cloned. -/
def ClonesKnown (g : Reg Ty) (m : BufMap E Ty) (l : Layout Ty) : Prop :=
  ∀ i k a, (i, k) ∈ needs m l → Has m i a → (a.behavior = .clone ∨ ∃ u, k = .cloneFrom u) →
    g.clone a.ty = true

/-- Every buffer that a layout needs is there and has a message for the session that can
be shown. -/
def Stocked (sd : Serde V J) (m : BufMap E Ty) (l : Layout Ty) (w : BufWorld E S V) (s : S) :
    Prop :=
  ∀ i k a, (i, k) ∈ needs m l → Has m i a → IsBuffer w a.loc.source a.ty ∧
    ∃ x it, (stock w a.loc.source s).head? = some x ∧ shown sd k x = some it

/-- A join of the buffers of a map takes the oldest message of every buffer that the
layout needs, under its identifier. It removes the messages of the buffers that are to be
pulled and leaves everything else alone. -/
def JoinsAsAsked [DecidableEq S] (sd : Serde V J) (m : BufMap E Ty) (l : Layout Ty)
    (w w' : BufWorld E S V) (s : S) (res : Option (List (Ident × Item V J))) : Prop :=
  ∃ items, res = some items ∧ items.map (·.1) = (needs m l).map (·.1) ∧
    (∀ i k a, (i, k) ∈ needs m l → Has m i a → ∃ x it, (stock w a.loc.source s).head? = some x ∧
      shown sd k x = some it ∧ (i, it) ∈ items) ∧
    (∀ e s', (s' = s ∧ ∃ i k a, (i, k) ∈ needs m l ∧ Has m i a ∧ a.loc.source = e ∧
      a.behavior = .pull) → stock w' e s' = (stock w e s').tail) ∧
    (∀ e s', ¬ (s' = s ∧ ∃ i k a, (i, k) ∈ needs m l ∧ Has m i a ∧ a.loc.source = e ∧
      a.behavior = .pull) → stock w' e s' = stock w e s')

/-- A buffer may have this hint. -/
def Hint.Allows (g : Reg Ty) (a : AnyRef E Ty) : Hint Ty → Prop
  | .exact t => a.ty = t
  | .anyMessage => True
  | .jsonMessage => g.json a.ty = true

end

/-! ### JSON messages -/

section
variable {J : Type}

/-- The message joined under an index, if any. -/
def atIndex (xs : List (Ident × J)) (i : Nat) : Option J :=
  (xs.find? fun x => x.1 == .index i).map (·.2)

/-- The message joined under a name, if any. -/
def atName (xs : List (Ident × J)) (n : String) : Option J :=
  (xs.find? fun x => x.1 == .name n).map (·.2)

/-- The array has the message of every index at its place, null at the places of missing
smaller indices, and ends with the greatest index. -/
def ArrayOf (xs : List (Ident × J)) (a : List (JsonVal J)) : Prop :=
  (∀ i j, atIndex xs i = some j → a[i]? = some (.msg j)) ∧
  (∀ i, i < a.length → atIndex xs i = none → a[i]? = some .null) ∧
  (∀ i, i < a.length ↔ ∃ i' j, i ≤ i' ∧ atIndex xs i' = some j)

/-- The object has the message of every name and nothing else, each once. -/
def ObjectOf (xs : List (Ident × J)) (o : List (String × JsonVal J)) : Prop :=
  (o.map (·.1)).Nodup ∧ ∀ n v, (n, v) ∈ o ↔ ∃ j, atName xs n = some j ∧ v = .msg j

end

end Verif.Refs
