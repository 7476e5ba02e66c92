import Verif.Collect.Model

/-
Vocabulary for C19 and C20.
-/
namespace Verif.Collect

variable {α : Type}

/-- The values that arrived in a session. -/
def arrived (session : Nat) (es : List (Ev α)) : List α :=
  es.filterMap fun | .input s d _ => if s = session then some d else none | _ => none

/-- The batches that were emitted in a session. -/
def batches (session : Nat) (log : List (Rec α)) : List (List α) :=
  log.filterMap fun | .sent s b => if s = session then some b else none | _ => none

/-- Everything that left the collection of a session, oldest first. -/
def left (session : Nat) (log : List (Rec α)) : List α :=
  log.flatMap fun
    | .sent s b => if s = session then b else []
    | .cleaned s b => if s = session then b else []
    | .deficient _ _ => []

/-- The session of an event. -/
def Ev.session : Ev α → Nat
  | .input s _ _ => s
  | .disposal s _ _ _ => s
  | .cleanup s => s

/-- The event comes with the answer that more inputs may arrive, or does not concern the
collection. -/
def Ev.Open : Ev α → Prop
  | .input _ _ active => active = true
  | .disposal _ own upstream active => own = true ∨ upstream = false ∨ active = true
  | .cleanup _ => True

/-- The event tells the node that no more inputs arrive in the session. -/
def Ev.Exhausts : Ev α → Prop
  | .input _ _ active => active = false
  | .disposal _ own upstream active => own = false ∧ upstream = true ∧ active = false
  | .cleanup _ => False

/-- What the collection of a session is after the arrival that an event brings. -/
def pendingAfterArrival (l : List α) : Ev α → List α
  | .input _ d _ => l ++ [d]
  | _ => l

end Verif.Collect
