import Verif.Flush.Model

/-
Vocabulary for the statements about the flush loop. Everything is computed from
the recorded history of a run or from the lists of a roster.
-/
namespace Verif.Flush

variable {W E : Type} [DecidableEq E]

/-- Deferred-queue requests are requests to execute an operation, like queue ones. -/
def slot : Kind → Kind
  | .deferred => .queue
  | k => k

/-- How often `e` was requested for slot `k` in a history. -/
def newCount (k : Kind) (e : E) (h : List (Hist E)) : Nat :=
  h.countP fun
    | .new k' e' => decide (slot k' = k) && decide (e' = e)
    | _ => false

/-- How often `e` was executed for slot `k` in a history. -/
def ranCount (k : Kind) (e : E) (h : List (Hist E)) : Nat :=
  h.countP fun
    | .ran k' e' => decide (slot k' = k) && decide (e' = e)
    | _ => false

/-- How often `e` is waiting for slot `k` in a roster. -/
def waiting (k : Kind) (e : E) (r : Roster E) : Nat :=
  match k with
  | .queue => r.queue.count e + r.deferred.count e
  | .deferred => 0
  | k => (r.get k).count e

/-- How often `e` is waiting for slot `k` anywhere: in the running roster, in the
`DeferredRoster` or in the wake queue. -/
def pending (k : Kind) (e : E) (s : St W E) : Nat :=
  waiting k e s.roster + waiting k e s.later

/-- Entries executed from list `k`, in order. -/
def ranOf (k : Kind) (h : List (Hist E)) : List E :=
  h.filterMap fun
    | .ran k' e => if k' = k then some e else none
    | _ => none

/-- Entries that left list `k` of the running roster (executed, kept for the next
flush, or moved from the deferred queue to the queue), in order. -/
def leftOf (k : Kind) (h : List (Hist E)) : List E :=
  h.filterMap fun
    | .ran k' e => if k' = k then some e else none
    | .kept k' e => if k' = k then some e else none
    | .undeferred e => if k = .deferred then some e else none
    | _ => none

/-- Entries that entered list `k` of the running roster, in order. -/
def enteredOf (k : Kind) (h : List (Hist E)) : List E :=
  h.filterMap fun
    | .entered k' e => if k' = k then some e else none
    | .merged k' e => if k' = k then some e else none
    | .undeferred e => if k = .queue then some e else none
    | _ => none

/-- Entries that were put in list `k` of the `DeferredRoster` (by somebody, or kept
there by the loop limit), in order. -/
def storedOf (k : Kind) (h : List (Hist E)) : List E :=
  h.filterMap fun
    | .stored k' e => if k' = k then some e else none
    | .kept k' e => if k' = k then some e else none
    | _ => none

/-- Entries that were taken up from list `k` of the `DeferredRoster`, in order. -/
def mergedOf (k : Kind) (h : List (Hist E)) : List E :=
  h.filterMap fun
    | .merged k' e => if k' = k then some e else none
    | _ => none

/-- Items received from the async channel, in order. -/
def receivedOf (h : List (Hist E)) : List E :=
  h.filterMap fun
    | .received e => some e
    | _ => none

def noPurge (h : List (Hist E)) : Prop := ∀ e, .purged e ∉ h

/-- Lists of the roster that are first-in-first-out. -/
def Fifo (k : Kind) : Prop := k ≠ .disposed ∧ k ≠ .cleanup

/-- Machine states a flush can be in: a return phase of `garbage_cleanup` is one of
its three callers, and outside a flush there is no running roster. -/
def WF (s : St W E) : Prop :=
  (s.phase = .idle → s.roster = {}) ∧
  match s.phase with
  | .cleanups r | .cancels r => r = .unblock ∨ r = .queueCheck ∨ r = .awake
  | _ => True

/-- The run stays within one collection from the channel: every step starts in
the channel loop. -/
def staysReceiving (P : Prog W E) : St W E → List (Ev W E) → Prop
  | _, [] => True
  | s, v :: vs => s.phase = .recv ∧ staysReceiving P (step P s v).1 vs

end Verif.Flush
