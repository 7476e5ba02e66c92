import Verif.Inject.Model

/- What an injection node is about: which requests came in and which answers were made. -/
namespace Verif.Inject

/-- The requests (session, request) that arrived while their session was active. -/
def givenFrom : State → List Op → List (Nat × Nat)
  | _, [] => []
  | st, op :: ops =>
    (match op with
      | .input s r => if s ∈ st.inactive then [] else [(s, r)]
      | _ => []) ++ givenFrom (st.step op) ops

def given (ops : List Op) : List (Nat × Nat) := givenFrom {} ops

/-- An answer: the session and the request that it answers, and the response. -/
structure Answer where
  session : Nat
  request : Nat
  data : Nat
  deriving DecidableEq, Repr

/-- The answers that the injected services made while the session was active. -/
def answersFrom : State → List Op → List Answer
  | _, [] => []
  | st, op :: ops =>
    (match op with
      | .respond t d =>
        ((st.working.filter fun w => w.task = t ∧ w.session ∉ st.inactive).map fun w =>
          (⟨w.session, w.request, d⟩ : Answer)).take 1
      | _ => []) ++ answersFrom (st.step op) ops

def answers (ops : List Op) : List Answer := answersFrom {} ops

/-- The operations neither clean the session up nor stop it. -/
def Undisturbed (s : Nat) (ops : List Op) : Prop :=
  (∀ id now, Op.cleanup s id now ∉ ops) ∧ Op.stop s ∉ ops

/-- No operation is a cleanup with this id. -/
def NoCleanup (id : Nat) (ops : List Op) : Prop := ∀ s now, Op.cleanup s id now ∉ ops

end Verif.Inject
