import Verif.Gone.Model
import Verif.Delivery.Spec

/-
What may become of a request to a service, in terms of the records of the nodes and of the
service only.
-/
namespace Verif.Gone

open Verif.Delivery (Svc Order)

/-- How often a request like `r` (this node, session and instructions) was made. -/
def arrivals (w : W) (r : Req) : Nat := w.log.count (.arrived r)

/-- How many of the orders came from requests like `r`. -/
def ofReq (r : Req) (os : List Order) : Nat := os.countP fun o => decide (reqOf o = r)

/-- The requests whose task responded. -/
def responded (l : List Verif.Delivery.Rec) : List Order :=
  l.filterMap fun | .responded o => some o | _ => none

/-- The requests whose task was stopped by a pre-empting request or by a cleanup. -/
def stopped (l : List Verif.Delivery.Rec) : List Order :=
  l.filterMap fun | .stopped o => some o | .cleaned o => some o | _ => none

/-- How often a request like `r` was answered: by a blocking service at once, by the others
when the task responds. -/
def answers (w : W) (r : Req) : Nat :=
  w.log.count (.answered r) +
    ofReq r (responded w.svc.log)

/-- How often a request like `r` was superseded by a pre-empting one, withdrawn by the
cleanup of its session, or left without a target to answer to. -/
def withdrawn (w : W) (r : Req) : Nat :=
  w.log.count (.cleared r) +
    ofReq r (stopped w.svc.log) +
    ofReq r (Verif.Delivery.lost w.svc.log)

/-- How often the scope of a request like `r` was told that the service is unavailable. -/
def told (w : W) (r : Req) : Nat := w.log.count (.disposed r)

/-- Nothing waits in front of the service and nothing is being carried out. -/
def Rest (w : W) : Prop := w.inputs = [] ∧ w.svc.tasks = []

/-- The requests which the service held in its own queue, and those that it carried out
itself (continuous services and workflows), at the time of its removal. -/
def heldReqs (w : W) (r : Req) : Nat :=
  if w.blocking then 0
  else ofReq r (Verif.Delivery.waiting w.svc) +
    if w.svc.kind = .async then 0 else ofReq r (Verif.Delivery.active w.svc)

end Verif.Gone
