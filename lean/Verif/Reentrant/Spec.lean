import Verif.Reentrant.Model

/-
Vocabulary for C25 and C50.
-/
namespace Verif.Reentrant

variable {R : Type}

def Tree.root : Tree R → R
  | .node r _ => r

def Tree.kids : Tree R → List (Tree R)
  | .node _ kids => kids

mutual
/-- All requests of a tree: each before those that it causes. -/
def Tree.all : Tree R → List R
  | .node r kids => r :: Tree.allList kids
def Tree.allList : List (Tree R) → List R
  | [] => []
  | t :: ts => t.all ++ Tree.allList ts
end

mutual
/-- All requests of a tree: each before those that it causes, which come in reverse
order. -/
def Tree.rev : Tree R → List R
  | .node r kids => r :: Tree.revList kids
def Tree.revList : List (Tree R) → List R
  | [] => []
  | t :: ts => Tree.revList ts ++ t.rev
end

/-- The requests that a request causes do not cause further ones. -/
def Tree.Shallow (t : Tree R) : Prop := ∀ k ∈ t.kids, k.kids = []

/-- The callback executes one request after the other. -/
def executeList (fuel : Nat) (s : Cb) : List (Tree Nat) → Except Err Cb
  | [] => .ok s
  | t :: ts =>
    match execute fuel s t with
    | .error e => .error e
    | .ok s => executeList fuel s ts

/-- Nothing is being dispatched, and no service is running. -/
def Idle (s : Disp) : Prop := s.delivering = false ∧ s.queue = [] ∧ s.taken = []

def served (log : List Rec) : List Req := log.filterMap fun | .served r => some r | _ => none

end Verif.Reentrant
