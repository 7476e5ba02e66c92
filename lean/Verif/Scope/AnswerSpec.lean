import Verif.Scope.Spec

/-
Vocabulary for C114: the answer to a cleanup request of the parent.
-/
namespace Verif.Scope

variable {α κ : Type}

/-- The output is the answer to this cleanup request. -/
def Out.isAnswer (c : Cleanup) : Out α κ → Bool
  | .notify c' => c' = c
  | _ => false

/-- The answers to a cleanup request. -/
def answers (c : Cleanup) (st : State α κ) : List (Out α κ) := st.out.filter (Out.isAnswer c)

/-- The circumstances in which the parent asks for the cleanup of its session. -/
structure Sole (cfg : Cfg) (c : Cleanup) (now : List (Ent × Ent)) (st : State α κ) : Prop where
  /-- the id is an entity of the world -/
  known : c.id < st.next
  /-- there is one session for the parent session, or all operations answer the clean requests
  for its sessions at once -/
  one : (∀ x ∈ st.sessions, ∀ y ∈ st.sessions, x.parent = c.session → y.parent = c.session →
      x.sid = y.sid) ∨
    (∀ x ∈ st.sessions, x.parent = c.session → ∀ n ∈ cfg.nodes, (n, x.sid) ∈ now)
  /-- no session of the parent is being cleaned up already, and no other cleanup with this id
  is being carried out -/
  awaiting : ∀ a ∈ st.awaiting, a.parent ≠ c.session ∧ a.cleanup.id ≠ c.id
  /-- the id is not the id of a scoped session, nor of the parent session of another one -/
  id : ∀ x ∈ st.sessions, x.sid ≠ c.id ∧ (x.parent = c.id → c.id = c.session)
  /-- the request was not answered before it was made -/
  fresh : answers c st = []

/-- The event is neither another cleanup request for the same parent session, or with the same
id, nor a new request from the parent session. -/
def Apart (c : Cleanup) (_ : State α κ) : Ev α κ → Prop
  | .cleanup c' _ => c'.session ≠ c.session ∧ c'.id ≠ c.id
  | .begin parent _ _ _ _ => parent ≠ c.session ∧ parent ≠ c.id
  | _ => True

end Verif.Scope
