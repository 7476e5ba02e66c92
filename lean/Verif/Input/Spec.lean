import Verif.Input.Model

/- Specification: a plain first-in-first-out list of inputs. -/
namespace Verif.Input

variable {S T : Type} [DecidableEq S]

/-- Events on the queue, oldest first. -/
def specStep (q : List (Inp S T)) : Ev S T → List (Inp S T) × Obs S T
  | .send s d true => (q ++ [⟨s, d⟩], .sent (.ok .schedule))
  | .send _ _ false => (q, .sent (.ok .ignored))
  | .take =>
    match q with
    | [] => ([], .took (.error .notReady))
    | i :: q => (q, .took (.ok i))
  | .cleanup s => (q.filter fun i => decide (i.session ≠ s), .cleaned)

def specRun (q : List (Inp S T)) : List (Ev S T) → List (Inp S T) × List (Obs S T)
  | [] => (q, [])
  | e :: es =>
    let r := specStep q e
    let r' := specRun r.1 es
    (r'.1, r.2 :: r'.2)

/-- Inputs that were sent while their session was active. -/
def accepted : List (Ev S T) → List (Inp S T)
  | [] => []
  | .send s d true :: es => ⟨s, d⟩ :: accepted es
  | _ :: es => accepted es

/-- Inputs the operation obtained. -/
def taken : List (Obs S T) → List (Inp S T)
  | [] => []
  | .took (.ok i) :: os => i :: taken os
  | _ :: os => taken os

/-- A history contains no cleanup. -/
def noCleanup : List (Ev S T) → Bool
  | [] => true
  | .cleanup _ :: _ => false
  | _ :: es => noCleanup es

end Verif.Input
