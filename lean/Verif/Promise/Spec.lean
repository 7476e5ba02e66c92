import Verif.Promise.Model

/-
Specification for C30, C34, C56 and C57: what the owner of a promise may see.
-/
namespace Verif.Promise

variable {T E : Type}

/-- How a result reads. -/
def ofResult : Result T E → State T E
  | .available v => .available v
  | .cancelled c => .cancelled c
  | .disposed => .disposed

/-- A promise as its users should see it: the verdict of the sender, whether the result
was taken, whether the promise was dropped. -/
structure Abs (T E : Type) where
  verdict : Option (Result T E) := none
  taken : Bool := false
  dropped : Bool := false

/-- A result that was taken reads as taken; a failure stays as it is. -/
def view (verdict : Option (Result T E)) (taken : Bool) : State T E :=
  match verdict with
  | none => .pending
  | some (.available v) => if taken then .taken else .available v
  | some (.cancelled c) => .cancelled c
  | some .disposed => .disposed

/-- The first act of the sender counts. A sender that is dropped without sending makes the
promise disposed. -/
def Abs.step (a : Abs T E) : Op T E → Abs T E × Out T E
  | .finish r => ({ a with verdict := a.verdict.or (some (r.getD .disposed)) }, .unit)
  | .onPromiseDrop => (a, .unit)
  | .update => (a, .unit)
  | .peek => (a, if a.dropped then .unit else .saw (view a.verdict a.taken))
  | .sneakPeek => (a, if a.dropped then .unit else .saw (view a.verdict a.taken))
  | .take =>
    if a.dropped then (a, .unit)
    else ({ a with taken := a.taken || a.verdict.isSome }, .took (view a.verdict a.taken))
  | .dropPromise => ({ a with dropped := true }, .unit)

def Abs.run (a : Abs T E) : List (Op T E) → Abs T E × List (Out T E)
  | [] => (a, [])
  | o :: ops =>
    let r := a.step o
    let r' := Abs.run r.1 ops
    (r'.1, r.2 :: r'.2)

/-- The outcome of a nested promise: the inner result if the outer one succeeded,
otherwise the failure of the outer one; open as long as the result that matters is
missing. -/
def outcome (o : Option (Result Unit E)) (i : Option (Result T E)) : Option (Result T E) :=
  match o with
  | none => none
  | some (.available ()) => i
  | some (.cancelled c) => some (.cancelled c)
  | some .disposed => some .disposed

/-- A nested promise and its flat promise as its users should see them. -/
structure AbsW (T E : Type) where
  outer : Option (Result Unit E) := none
  inner : Option (Result T E) := none
  flattened : Bool := false
  taken : Bool := false
  dropped : Bool := false

def AbsW.step (a : AbsW T E) : WOp T E → AbsW T E × Out T E
  | .outerFinish r => ({ a with outer := a.outer.or (some (r.getD .disposed)) }, .unit)
  | .innerFinish r => ({ a with inner := a.inner.or (some (r.getD .disposed)) }, .unit)
  | .flatten => ({ a with flattened := true }, .unit)
  | .flatPeek =>
    (a, if a.flattened && !a.dropped then .saw (view (outcome a.outer a.inner) a.taken) else .unit)
  | .flatTake =>
    if a.flattened && !a.dropped then
      ({ a with taken := a.taken || (outcome a.outer a.inner).isSome },
        .took (view (outcome a.outer a.inner) a.taken))
    else (a, .unit)
  | .flatDrop => ({ a with dropped := a.dropped || a.flattened }, .unit)
  | _ => (a, .unit)

def AbsW.run (a : AbsW T E) : List (WOp T E) → AbsW T E × List (Out T E)
  | [] => (a, [])
  | o :: ops =>
    let r := a.step o
    let r' := AbsW.run r.1 ops
    (r'.1, r.2 :: r'.2)

/-- The response taken by a call, if any. -/
def Out.response : Out T E → Option T
  | .took (.available v) => some v
  | _ => none

end Verif.Promise
