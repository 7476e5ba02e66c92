import Verif.Editor.Shelf
/-
What a user expects of the list of templates, without the functions of the model.
-/
namespace Verif.Editor
variable {T D : Type}

/-- The template with a name. -/
def Shelf.at_ (s : Shelf T D) (n : Name) : Option T := (s.templates.find? fun p => p.1 == n).map (·.2)

/-- What an action can be about: a file is an object, so it has every key once. -/
def Act.Fair : Act T D → Prop
  | .load l _ => (l.map (·.1)).Nodup
  | _ => True

/-- The states that a user can come to. -/
inductive Shelf.Reached (k : Kit T D) : Shelf T D → Prop where
  | start (d e : D) : Reached k ⟨[], none, "", d, e, none⟩
  | step (s : Shelf T D) (a : Act T D) : Reached k s → a.Fair → Reached k (s.step k a)

/-- A name in a list, put in the place of another. -/
def swap (a b x : Name) : Name := if x = a then b else x

/-- What renaming `a` to `b` is to do: the template is found under its new name and not under the old, the
others stay, and so do the places in the list. -/
def Shelf.Renamed (s s' : Shelf T D) (a b : Name) : Prop :=
  s'.at_ b = s.at_ a ∧ (a ≠ b → s'.at_ a = none) ∧ (∀ n, n ≠ a → n ≠ b → s'.at_ n = s.at_ n) ∧
    s'.keys = s.keys.map (swap a b)

end Verif.Editor
