import Verif.Input.Model
import Verif.Flush.Model

/-
Operations with input queues driven by the flush loop: the models of
src/input.rs (Verif.Input) and src/flush.rs (Verif.Flush) put together.
-/
namespace Verif.Sched

open Verif.Input Verif.Flush

variable {E S T U : Type} [DecidableEq E] [DecidableEq S]

/-- The world: an input node per entity, which sessions are active, and whatever
else the application has. -/
structure World (E S T U : Type) where
  nodes : E → Node S T
  active : S → Bool
  user : U

/-- What running code can do to input queues and sessions. -/
inductive Act (E S T : Type) where
  /-- `give_input`, src/input.rs:173-183 -/
  | give (m : E) (s : S) (d : T)
  /-- `defer_input`, src/input.rs:185-195 -/
  | defer (m : E) (s : S) (d : T)
  /-- `InputCommand::apply`, src/input.rs:396-430 -/
  | command (m : E) (s : S) (d : T)
  /-- `cleanup_inputs` -/
  | cleanup (m : E) (s : S)
  /-- change the status of a session -/
  | setActive (s : S) (b : Bool)
  /-- despawn the operation after `roster.purge`, src/flush.rs:328-391 -/
  | drop (m : E)
  /-- any other request to the roster -/
  | other (f : Kind) (e : E)

def setNode (w : World E S T U) (m : E) (n : Node S T) : World E S T U :=
  { w with nodes := fun x => if x = m then n else w.nodes x }

/-- One act: the new world, the requests, and whether it failed as broken (the
caller then returns early through `?`). -/
def act (w : World E S T U) : Act E S T → World E S T U × List (Eff E) × Bool
  | .give m s d =>
    match sneakInput (w.nodes m) (w.active s) true s d with
    | .ok (n, .schedule) => (setNode w m n, [.put .queue m], false)
    | .ok (n, .ignored) => (setNode w m n, [], false)
    | .ok (n, .despawn) => (setNode w m n, [.put .despawn m], false)
    | .error _ => (w, [], true)
  | .defer m s d =>
    match sneakInput (w.nodes m) (w.active s) true s d with
    | .ok (n, .schedule) => (setNode w m n, [.put .deferred m], false)
    | .ok (n, .ignored) => (setNode w m n, [], false)
    | .ok (n, .despawn) => (setNode w m n, [.put .despawn m], false)
    | .error _ => (w, [], true)
  | .command m s d =>
    match (w.nodes m).storage with
    | some q => (setNode w m { w.nodes m with storage := some (⟨s, d⟩ :: q) },
        [.later .queue m], false)
    | none => (w, [.later .cancel m], false)
  | .cleanup m s => (setNode w m (cleanupInputs (w.nodes m) s), [], false)
  | .setActive s b => ({ w with active := fun x => if x = s then b else w.active x }, [], false)
  | .drop m => (setNode w m ⟨none, false, none, none⟩, [.purge m], false)
  | .other k e => (w, [.put k e], false)

/-- A sequence of acts, stopping at the first broken one. -/
def acts (w : World E S T U) : List (Act E S T) → World E S T U × List (Eff E) × Bool
  | [] => (w, [], false)
  | a :: as =>
    match act w a with
    | (w', fs, true) => (w', fs, true)
    | (w', fs, false) =>
      let r := acts w' as
      (r.1, fs ++ r.2.1, r.2.2)

/-- An application: what each operation does with the input it takes, and what
every other call-out of the flush does. -/
structure App (E S T U : Type) where
  params : World E S T U → Params
  op : E → Inp S T → U → U × List (Act E S T)
  other : Call E → U → U × List (Act E S T)

/-- The flush program of an application. An executed operation takes an input first
(`take_input`; `NotReady` is ignored, `Broken` cancels, `perform_operation`
src/operation.rs:712-734), then does what it does. Simplification: operations that
execute another one on the spot (`sneak_input` followed by `execute_operation` in
src/operation/scope.rs:1146-1165 and src/operation/injection.rs:101-130) are not
covered. -/
def App.prog (A : App E S T U) : Prog (World E S T U) E where
  params := A.params
  call := fun c w =>
    match c with
    | .entry .queue e =>
      match takeInput (w.nodes e) with
      | .error .notReady => (w, [])
      | .error .broken => (w, [.put .cancel e])
      | .ok (n, i) =>
        let w1 := setNode w e n
        let u := A.op e i w1.user
        let r := acts { w1 with user := u.1 } u.2
        (r.1, if r.2.2 then r.2.1 ++ [.put .cancel e] else r.2.1)
    | c =>
      let u := A.other c w.user
      let r := acts { w with user := u.1 } u.2
      (r.1, r.2.1)

/-- How many inputs wait at operation `n`. -/
def waitingAt (w : World E S T U) (n : E) : Nat := (Input.pending (w.nodes n)).length

end Verif.Sched
