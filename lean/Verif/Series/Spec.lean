import Verif.Series.Model

/-
What the properties of series are stated with.
-/
namespace Verif.Series

/-- `y` belongs to the series that ends at `t`: it is `t` itself or has it for an ancestor. -/
inductive Inside (w : World) (t : Nat) : Nat → Prop where
  | self : Inside w t t
  | child {y p : Nat} {n : Node} (h : w.nodes y = some n) (hp : n.parent = some p)
      (hi : Inside w t p) : Inside w t y

/-- Answers of `x` end up at `t`, the terminal of the series. -/
inductive Leads (w : World) : Nat → Nat → Prop where
  | last {t : Nat} {n : Node} (h : w.nodes t = some n) (ht : n.target = none) : Leads w t t
  | next {x y t : Nat} {n : Node} (h : w.nodes x = some n) (hy : n.target = some y)
      (hl : Leads w y t) : Leads w x t

/-- The values that a receiver was sent. -/
def got (w : World) (c : Nat) : List Nat := (w.received.filter fun r => r.1 = c).map (·.2)

/-- The values that were emitted by a working step into the stream that goes to `c`, in the
run from `w`. -/
def emitted (c : Nat) (w : World) : List Op → List Nat
  | [] => []
  | op :: ops =>
    (match op with
      | .emit x ty v =>
        match w.nodes x with
        | none => []
        | some n =>
          match n.kind with
          | .busy _ => if (n.streams.find? fun e => e.1 = ty).map (·.2) = some c then [v] else []
          | _ => []
      | _ => []) ++ emitted c (w.step op) ops

end Verif.Series
