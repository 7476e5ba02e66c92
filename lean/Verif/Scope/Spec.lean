import Verif.Scope.Model

/-
Vocabulary for the properties of scopes.
-/
namespace Verif.Scope

variable {α κ : Type}

/-- A new scope: nothing was begun yet; `next` entities exist in the world. -/
def State.new (next : Ent) : State α κ := { next }

/-- The output is a response or a cancellation for the request of this scoped session. -/
def Out.isOutcomeOf (s : Ent) : Out α κ → Bool
  | .respond s' _ _ => s' = s
  | .cancel s' _ _ _ => s' = s
  | _ => false

/-- The responses and cancellations for the request of this scoped session. -/
def outcomes (s : Ent) (st : State α κ) : List (Out α κ) := st.out.filter (Out.isOutcomeOf s)

/-- The first value that reached the terminal node in a session. -/
def firstValue (s : Ent) (st : State α κ) : Option α :=
  (st.values.find? (fun v => v.1 = s)).map (·.2)

/-- A condition on each event of a run and the state in which it happens. -/
def Along (cfg : Cfg) (P : State α κ → Ev α κ → Prop) : State α κ → List (Ev α κ) → Prop
  | _, [] => True
  | st, e :: es => P st e ∧ Along cfg P (step cfg st e) es

/-- The session is on its way: it has neither terminated nor been cancelled nor been asked
to stop. -/
def Status.Live : Status → Prop
  | .ongoing => True
  | .deferredCleanup => True
  | _ => False

/-- The session has terminated or was cancelled, and this is not yet carried out. -/
def Status.Ended : Status → Prop
  | .terminated => True
  | .cancelled => True
  | _ => False

/-- No cleanup request of the parent reaches an uninterruptible scope for a session that has
ended and whose end is still being carried out. -/
def NoLateCleanup (cfg : Cfg) (st : State α κ) : Ev α κ → Prop
  | .cleanup c _ =>
    cfg.uninterruptible = true → ∀ x ∈ st.sessions, x.parent = c.session → ¬ x.status.Ended
  | _ => True

/-- The parent leaves the scope alone: it does not ask for a cleanup, its session is not
despawned, and a cancel signal concerns at most one session. -/
def Calm (st : State α κ) : Ev α κ → Prop
  | .cleanup _ _ => False
  | .despawn _ => False
  | .cancel (some session) _ _ =>
    (st.sessions.filter (fun p => p.sid == session || p.parent == session)).length ≤ 1
  | .cancel none _ _ => ∀ session,
    (st.sessions.filter (fun p => p.sid == session || p.parent == session)).length ≤ 1
  | .begin parent _ _ _ _ => parent < st.next
  | _ => True

/-- Nothing is under way for a session: no operation still has to answer a clean request for
it, no finished cleanup of it waits for the flush loop, and no cleanup workflow runs for it. -/
structure Settled (s : Ent) (st : State α κ) : Prop where
  pending : ∀ c ∈ st.pending, c.session ≠ s
  finished : ∀ c ∈ st.finished, c.session ≠ s
  running : ∀ r ∈ st.running, r.2 ≠ s

/-- The event that ends a session that is on its way, with the result: a value that reached
the terminal node, or a cancellation of the session or of its parent, or of all sessions, or
because the terminal node cannot be reached. -/
def Ev.ends (s p : Ent) : Ev α κ → Option (α ⊕ κ)
  | .terminate s' v _ => if s' = s then some (.inl v) else none
  | .cancel none k _ => some (.inr k)
  | .cancel (some s') k _ => if s' = s ∨ s' = p then some (.inr k) else none
  | .validate s' (some k) _ => if s' = s then some (.inr k) else none
  | _ => none

/-- The output tells the parent session `p` of the request about this result. -/
def Out.Gives (s p : Ent) : α ⊕ κ → Out α κ → Prop
  | .inl v, .respond s' p' v' => s' = s ∧ p' = p ∧ v' = v
  | .inr k, .cancel s' p' k' _ => s' = s ∧ p' = p ∧ k' = k
  | _, _ => False

/-- The parent session that the outcome is for. -/
def Out.parent : Out α κ → Option Ent
  | .respond _ p _ => some p
  | .cancel _ p _ _ => some p
  | _ => none

/-- The output is a response. -/
def Out.IsResponse : Out α κ → Prop
  | .respond _ _ _ => True
  | _ => False

/-- The session is in the storage of the scope, and nothing has ended it yet. -/
def Ongoing (s p : Ent) (st : State α κ) : Prop :=
  { parent := p, sid := s, status := .ongoing } ∈ st.sessions

/-- The cleanup of a session has been carried out: every operation of the scope was asked to
clean up, every cleanup workflow that applies to this kind of end was started, and nothing of
this is still under way. -/
structure CleanedUp (cfg : Cfg) (s : Ent) (response : Prop) (st : State α κ) : Prop where
  asked : ∀ n ∈ cfg.nodes, ∃ c ∈ st.asked, c.node = n ∧ c.session = s
  started : ∀ f ∈ cfg.flows, (response ∧ f.onTerminate = true) ∨ (¬ response ∧ f.onCancelled = true) →
    (s, f) ∈ st.started
  settled : Settled s st

/-- The event is a cleanup request of the parent. -/
def Ev.isCleanup : Ev α κ → Bool
  | .cleanup _ _ => true
  | _ => false

/-- The cleanup request of the parent was answered. -/
def Answered (c : Cleanup) (st : State α κ) : Prop := .notify c ∈ st.out

end Verif.Scope
