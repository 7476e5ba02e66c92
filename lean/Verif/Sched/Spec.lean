import Verif.Sched.Model
import Verif.Flush.Spec

namespace Verif.Sched

open Verif.Input Verif.Flush

variable {W E : Type} [DecidableEq E]

/-- What others do between the steps of a flush: whoever adds an input to an
operation also asks for its execution (as `InputCommand::apply` does). `pend w n` is
the number of inputs waiting at `n`. -/
def CarefulEv (pend : W → E → Nat) : Flush.Ev W E → Prop
  | .tick => True
  | .env f l _ _ => ∀ w n, pend (f w) n ≤ pend w n +
      l.countP fun p => decide (slot p.1 = .queue) && decide (p.2 = n)

end Verif.Sched
