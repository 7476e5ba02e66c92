import Verif.Again.Model
/-
What a provider of responses is to do: like the bare system, over all requests. For C133.
-/
namespace Verif.Again

/-- What becomes of one request whose response is `p`: it gets there unless its target is gone, or a stream
buffer was kept, or a disposal could not be emitted. -/
inductive Becomes {P : Type} (t : Turn) (p : P) : Out P → Prop where
  | answered (h : t.target = true) (hk : t.kept = false) (hs : t.unused = true → t.source = true) :
      Becomes t p (.answered p)
  | broken (h : t.target = false ∨ t.kept = true ∨ (t.unused = true ∧ t.source = false)) :
      Becomes t p .broken

/-- A system in the state `s`, or none if it was removed, does with requests what it should: every request
meets the system in the state that the one before left it in, and after the removal every request is disposed
of. `r` is the state at the end. -/
inductive Works {S Q P : Type} (sys : S → Q → S × P) :
    Option S → List (Option Q × Turn) → List (Out P) → Option S → Prop where
  | done (s : Option S) : Works sys s [] [] s
  | idle {s r : Option S} {t : Turn} {l : List (Option Q × Turn)} {o : List (Out P)}
      (h : Works sys s l o r) : Works sys s ((none, t) :: l) (.notReady :: o) r
  | served {s : S} {r : Option S} {q : Q} {t : Turn} {l : List (Option Q × Turn)} {x : Out P}
      {o : List (Out P)} (hx : Becomes t (sys s q).2 x)
      (h : Works sys (if t.removes.isSome then none else some (sys s q).1) l o r) :
      Works sys (some s) ((some q, t) :: l) (x :: o) r
  | gone {r : Option S} {q : Q} {t : Turn} {l : List (Option Q × Turn)} {o : List (Out P)}
      (h : Works sys none l o r) : Works sys none ((some q, t) :: l) (.disposed :: o) r

/-- Nothing is removed, as by maps and callbacks, which are not entities of their own. -/
def Stays {Q : Type} (l : List (Option Q × Turn)) : Prop := ∀ x ∈ l, x.2.removes = none

/-- No stream buffer is kept. -/
def LetsGo {Q : Type} (l : List (Option Q × Turn)) : Prop := ∀ x ∈ l, x.2.kept = false

/-- A service is removed only as a whole. -/
def Whole {Q : Type} (l : List (Option Q × Turn)) : Prop := ∀ x ∈ l, x.2.removes ≠ some .storage

end Verif.Again
