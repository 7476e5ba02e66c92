import Verif.Convert.Model

/-
What a connection of a diagram is meant to do, in terms of the types, the registry and the
value alone: no connector, converter or network is mentioned.
-/
namespace Verif.Convert

/-- The connection is possible. -/
def Allowed (reg : Registry) (d : Decl) (ty : Ty) : Prop :=
  match d with
  | .input t =>
    ty = t ∨ (t = json ∧ ∃ r, reg ty = some r ∧ r.ser = true)
      ∨ (ty = json ∧ ∃ r, reg t = some r ∧ r.de = true)
  | .cancel => ty = string ∨ (reg ty).isSome
  | .dispose => True

/-- A converted message reaches the input, or the reason why it could not be converted goes
to the error target. -/
def orError {V : Type} (f : V → Effect V) : Except V V → List (Effect V)
  | .ok x => [f x]
  | .error e => [.error e]

/-- What is to become of a message `v` of type `ty` that is sent to target `k`. -/
def effect {V : Type} (S : Sem V) (reg : Registry) (k : Nat) (d : Decl) (ty : Ty) (v : V) :
    List (Effect V) :=
  match d with
  | .input t =>
    if ty = t then [.input k v]
    else if t = json then orError (.input k) (S.ser ty v)
    else orError (.input k) (S.de t v)
  | .cancel =>
    if ty = string then [.cancel k (some v)]
    else
      match reg ty with
      | none => []
      | some r =>
        if r.str then [.cancel k (some (S.str ty v))]
        else if ty = json then [.cancel k (some (S.text v))]
        else if r.ser then orError (fun j => .cancel k (some (S.text j))) (S.ser ty v)
        else [.cancel k none]
  | .dispose => []

end Verif.Convert
