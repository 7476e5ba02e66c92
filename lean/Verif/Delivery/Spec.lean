import Verif.Delivery.Model

/-
Vocabulary for the properties C21–C24 and C58. It speaks about orders, the log and the
tasks only, not about the functions of the model.
-/
namespace Verif.Delivery

/-- Two requests that must not be carried out at the same time: any two requests of a
serial service, and two requests with the same delivery label of a parallel service
(src/service.rs:220-262). -/
def Conflict (parallel : Bool) (a b : Order) : Prop :=
  parallel = false ∨ ∃ i j, a.instr = some i ∧ b.instr = some j ∧ i.label = j.label

/-- The queue that a request belongs to: the only one of a serial service, the one of
its label in a parallel service; a request without label belongs to none there. -/
def queueOf (parallel : Bool) (o : Order) : Option (Option Nat) :=
  if parallel then o.instr.map (fun i => some i.label) else some none

/-- The requests that were accepted, in order. -/
def accepted (log : List Rec) : List Order :=
  log.filterMap fun | .accepted o => some o | _ => none

/-- The requests that were started, in order. -/
def started (log : List Rec) : List Order :=
  log.filterMap fun | .started o => some o | _ => none

/-- The requests whose task came to its end: it responded, was stopped by a pre-empting
request, or was stopped by a cleanup. -/
def ended (log : List Rec) : List Order :=
  log.filterMap fun | .responded o => some o | .stopped o => some o | .cleaned o => some o | _ => none

/-- The waiting requests that were discarded by a pre-empting one. -/
def discarded (log : List Rec) : List Order :=
  log.filterMap fun | .discarded o => some o | _ => none

/-- The waiting requests that were removed by a session cleanup. -/
def removed (log : List Rec) : List Order :=
  log.filterMap fun | .removed o => some o | _ => none

/-- The waiting requests that were skipped because their node has no target any more. -/
def skipped (log : List Rec) : List Order :=
  log.filterMap fun | .skipped o => some o | _ => none

/-- The requests that will never be started. -/
def lost (log : List Rec) : List Order :=
  log.filterMap fun | .discarded o => some o | .removed o => some o | .skipped o => some o | _ => none

/-- The waiting requests, queue by queue. -/
def waiting (v : Svc) : List Order :=
  v.delivery.keys.flatMap fun k => (v.delivery.lane k).queue

/-- The requests that are being carried out. -/
def active (v : Svc) : List Order := v.tasks.map (·.order)

/-- A request with these instructions discards others. -/
def Preempts (instr : Option Instr) : Prop := ∃ i, instr = some i ∧ i.preempt = true

/-- No request pre-empts. -/
def NoPreempt (es : List Ev) : Prop :=
  ∀ source session instr, Ev.arrive source session instr ∈ es → ¬ Preempts instr

/-- When a pre-empting request arrives, there is nothing of the service in the list of
the flush loop for finished tasks, and no task entity was despawned before the
cancellation of its task was done. -/
def Settled (v : Svc) : Ev → Prop
  | .arrive _ _ instr => Preempts instr → v.unblocks = [] ∧ ∀ t ∈ v.tasks, t.status ≠ .gone
  | _ => True

/-- `P` holds of every state of the run and the event that is next. -/
def Along (P : Svc → Ev → Prop) : Svc → List Ev → Prop
  | _, [] => True
  | v, e :: es => P v e ∧ ∀ v', step v e = some v' → Along P v' es

/-- The requests that `o`, pre-empting, may discard: those with its label that are not
protected by `ensure`. -/
def Loses (o prior : Order) : Prop :=
  ∃ i j, o.instr = some i ∧ prior.instr = some j ∧ j.label = i.label ∧ j.ensure = false

instance (o prior : Order) : Decidable (Loses o prior) :=
  match ho : o.instr, hp : prior.instr with
  | some i, some j =>
    if h : j.label = i.label ∧ j.ensure = false then
      isTrue ⟨i, j, ho, hp, h.1, h.2⟩
    else
      isFalse (by
        rintro ⟨i', j', h1, h2, h3, h4⟩
        rw [ho] at h1; rw [hp] at h2
        cases h1; cases h2
        exact h ⟨h3, h4⟩)
  | none, _ => isFalse (by rintro ⟨i, j, h1, _⟩; rw [ho] at h1; cases h1)
  | some _, none => isFalse (by rintro ⟨i, j, _, h2, _⟩; rw [hp] at h2; cases h2)

end Verif.Delivery
