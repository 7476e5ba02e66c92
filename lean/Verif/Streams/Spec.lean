import Verif.Streams.Model

/- What streams are supposed to do, in terms of the outputs that were registered for a node
and of the inputs waiting at each entity. -/
namespace Verif.Streams

open Verif.Input

variable {A : Type}

/-- The outputs registered for the streams of a node, in the order of registration: the
stream and the entity that is to receive its items. -/
abbrev Regs (A : Type) := List (Stream A × Nat)

/-- The first entity registered without a name for items of type `t`. A dynamically named
stream of `T` counts as a stream of `NamedValue<T>`. -/
def typeTarget (t : Ty) : Regs A → Option Nat
  | [] => none
  | (.anon e, x) :: rest => if e.output = t then some x else typeTarget t rest
  | (.dyn e, x) :: rest => if .named e.output = t then some x else typeTarget t rest
  | (.named _ _, _) :: rest => typeTarget t rest

/-- The first registration under the given name: its type and its entity. -/
def nameTarget (name : String) : Regs A → Option (Ty × Nat)
  | [] => none
  | (.named m e, x) :: rest => if m = name then some (e.output, x) else nameTarget name rest
  | (.anon _, _) :: rest => nameTarget name rest
  | (.dyn _, _) :: rest => nameTarget name rest

/-- A message on its way: receiver, type and value. -/
abbrev Out (A : Type) := Nat × Ty × Val A

/-- Where an item `o` of type `t` goes that has a name: to the target registered for its name
and type; else, with its name, to a target for named values of its type; else to a target for
its type; else nowhere. -/
def routeNamed (regs : Regs A) (t : Ty) (name : String) (o : Val A) : List (Out A) :=
  match (nameTarget name regs).filter fun p => p.1 = t with
  | some p => [(p.2, t, o)]
  | none =>
    match typeTarget (.named t) regs with
    | some x => [(x, .named t, .named name o)]
    | none =>
      match typeTarget t regs with
      | some x => [(x, t, o)]
      | none => []

/-- Where an item of a stream goes. Nothing is sent when the side effect of the stream
fails. -/
def route (regs : Regs A) (s : Stream A) (i : Item A) : List (Out A) :=
  match s.effect.run i.2 with
  | .error _ => []
  | .ok o =>
    match s with
    | .anon e => (typeTarget e.output regs).toList.map fun x => (x, e.output, o)
    | .named name e => routeNamed regs e.output name o
    | .dyn e => routeNamed regs e.output i.1 o

/-- The inputs of type `t` waiting at an entity, oldest first. -/
def World.inbox (w : World A) (e : Nat) (t : Ty) : List (Inp Nat (Val A)) :=
  match w.nodes e with
  | none => []
  | some n => ((n.stores t).getD []).reverse

/-- The entity exists and takes inputs of type `t`. -/
def World.takes (w : World A) (e : Nat) (t : Ty) : Bool :=
  match w.nodes e with
  | none => false
  | some n => (n.stores t).isSome

/-- The parts of an entity other than its inputs. -/
def World.rest (w : World A) (e : Nat) : Option (Node A) :=
  (w.nodes e).map fun n => { n with stores := fun _ => none }

/-- The entity is an output that nothing was connected to. -/
def World.isUnused (w : World A) (e : Nat) : Bool :=
  ((w.rest e).map (·.unused)).getD false

/-- `w'` is `w` after the messages `out` were put, in this order and in this session, into
the inboxes of their receivers. Receivers that do not take the type get nothing, and nobody
does if the session is over. Every
receiver, also one that nothing was connected to, is scheduled once per message. Nothing else changes in any entity. -/
structure Sent (w w' : World A) (session : Nat) (out : List (Out A)) : Prop where
  inbox : ∀ e t, w'.inbox e t = w.inbox e t ++
    (out.filter fun o => o.1 = e ∧ o.2.1 = t ∧ w.active session ∧ w.takes e t).map
      fun o => ⟨session, o.2.2⟩
  queue : w'.queue = w.queue ++
    (out.filter fun o => w.active session && (w.takes o.1 o.2.1 || w.isUnused o.1)).map (·.1)
  takes : ∀ e t, w'.takes e t = w.takes e t
  rest : ∀ e, w'.rest e = w.rest e
  active : w'.active = w.active

/-- Two registrations clash when they are for the same name, or for the same type without
a name. -/
def clash : Stream A → Stream A → Bool
  | .named m _, .named n _ => m = n
  | .named _ _, _ => false
  | _, .named _ _ => false
  | .anon e, .anon f => e.output = f.output
  | .anon e, .dyn f => e.output = .named f.output
  | .dyn e, .anon f => .named e.output = f.output
  | .dyn e, .dyn f => e.output = f.output

/-- The entities of the registrations that come after one with which they clash. -/
def late : Regs A → Regs A → List Nat
  | _, [] => []
  | seen, (s, x) :: rest =>
    (if seen.any fun r => clash r.1 s then [x] else []) ++ late (seen ++ [(s, x)]) rest

/-- What Rust's type checker guarantees of an effect. -/
def Effect.Sound (e : Effect A) : Prop :=
  ∀ v o, v.ty = e.input → e.run v = .ok o → o.ty = e.output

/-- Every input waits in the storage of its own type. -/
def World.Typed (w : World A) : Prop :=
  ∀ e t i, i ∈ w.inbox e t → i.data.ty = t

/-- What the output of a stream in a node's pack is declared to give. -/
def Stream.declared : Stream A → Ty
  | .anon e => e.output
  | .named _ e => e.output
  | .dyn e => .named e.output

/-- Items of the stream `s` of a provider reach a node that only asked for `s'`: for some
name, whenever the side effect succeeds. -/
def Feeds (s s' : Stream A) : Prop :=
  ∃ name, ∀ v o, s.effect.run v = .ok o → route [(s', 0)] s (name, v) ≠ []

/-- The same kind of stream: name and output type agree. -/
def Same : Stream A → Stream A → Prop
  | .anon e, .anon f => e.output = f.output
  | .named m e, .named n f => m = n ∧ e.output = f.output
  | .dyn e, .dyn f => e.output = f.output
  | _, _ => False

def Stream.isDyn : Stream A → Bool
  | .dyn _ => true
  | _ => false

/-- No name is used for two streams of the pack. -/
def DistinctNames (p : Pack A) : Prop :=
  (p.filterMap fun s => match s with | .named n _ => some n | _ => none).Nodup

end Verif.Streams
