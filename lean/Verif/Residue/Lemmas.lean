import Verif.Residue.Spec

set_option linter.unusedSectionVars false
set_option linter.unusedSimpArgs false
set_option linter.unusedVariables false

namespace Verif.Residue

variable {V D : Type}

@[simp] theorem upd_same {A : Type} (f : Nat → A) (s : Nat) (a : A) : upd f s a s = a := by
  simp [upd]

theorem upd_ne {A : Type} (f : Nat → A) {s t : Nat} (a : A) (h : t ≠ s) : upd f s a t = f t := by
  simp [upd, h]

@[simp] theorem set_node (w : World V D) (n : Nat) (x : Node V D) (m : Nat) :
    (w.set n x).node m = if m = n then x else w.node m := rfl

@[simp] theorem set_contents (w : World V D) (n : Nat) (x : Node V D) :
    (w.set n x).contents = w.contents := rfl

@[simp] theorem set_next (w : World V D) (n : Nat) (x : Node V D) :
    (w.set n x).next = w.next := rfl

@[simp] theorem set_helpers (w : World V D) (n : Nat) (x : Node V D) :
    (w.set n x).helpers = w.helpers := rfl

/-! ### Folds over the operations of the scope -/

theorem fold_nodes (f : World V D → Nat → World V D) (g : Node V D → Node V D)
    (hf : ∀ w n m, (f w n).node m = if m = n then g (w.node m) else w.node m) :
    ∀ (l : List Nat), l.Nodup → ∀ (w : World V D) (m : Nat),
      (l.foldl f w).node m = if m ∈ l then g (w.node m) else w.node m
  | [], _, w, m => by simp
  | a :: l, h, w, m => by
    have h := List.nodup_cons.1 h
    rw [List.foldl_cons, fold_nodes f g hf l h.2, hf]
    by_cases hm : m = a
    · subst hm; simp [h.1]
    · simp [hm]

theorem fold_rest {A : Type} (p : World V D → A) (f : World V D → Nat → World V D)
    (hf : ∀ w n, p (f w n) = p w) : ∀ (l : List Nat) (w : World V D), p (l.foldl f w) = p w
  | [], w => rfl
  | a :: l, w => by rw [List.foldl_cons, fold_rest p f hf l, hf]

theorem cleanAll_node (w : World V D) (h : w.contents.Nodup) (s m : Nat) :
    (w.cleanAll s).node m =
      if m ∈ w.contents then (w.node m).clean true s else w.node m := by
  refine fold_nodes _ (fun x => x.clean true s) ?_ _ h w m
  intro w n m
  simp only [World.clean, set_node]
  split <;> simp_all

def Node.drop (x : Node V D) (s : Nat) : Node V D :=
  if x.kind = .buffer then { x with stored := upd x.stored s [] } else x

theorem clear_node (w : World V D) (h : w.contents.Nodup) (s m : Nat) :
    (w.clear s).node m = if m ∈ w.contents then (w.node m).drop s else w.node m := by
  refine fold_nodes _ (fun x => x.drop s) ?_ _ h w m
  intro w n m
  unfold Node.drop
  by_cases hk : (w.node n).kind = .buffer
  · simp only [hk, if_true, set_node]
    split
    · rename_i e; subst e; simp [hk]
    · rfl
  · simp only [hk, if_false]
    split
    · rename_i e; subst e; simp [hk]
    · rfl

theorem cleanAll_rest {A : Type} (p : World V D → A)
    (hp : ∀ (w : World V D) n x, p (w.set n x) = p w) (w : World V D) (s : Nat) :
    p (w.cleanAll s) = p w := fold_rest p _ (fun w n => hp _ _ _) _ _

theorem clear_rest {A : Type} (p : World V D → A)
    (hp : ∀ (w : World V D) n x, p (w.set n x) = p w) (w : World V D) (s : Nat) :
    p (w.clear s) = p w := fold_rest p _ (fun w n => by dsimp only; split <;> simp [hp]) _ _

theorem step_contents (w : World V D) (v : Ev V D) : (step w v).contents = w.contents := by
  cases v <;> simp only [step]
  all_goals first
    | rfl
    | exact cleanAll_rest (·.contents) (fun _ _ _ => rfl) _ _
    | exact clear_rest (·.contents) (fun _ _ _ => rfl) _ _
    | (split <;> rfl)

theorem run_contents (w : World V D) (evs : List (Ev V D)) :
    (run w evs).contents = w.contents := by
  induction evs generalizing w with
  | nil => rfl
  | cons v vs ih => exact (ih (step w v)).trans (step_contents w v)

/-! ### What an event does to one operation -/

/-- The change of one operation by an event about it. -/
def local_ (next : Nat) (x : Node V D) : Ev V D → Node V D
  | .give _ s v => { x with inputs := x.inputs ++ [(s, v)] }
  | .exec _ full =>
    match x.inputs with
    | [] => x
    | (s, v) :: rest => Node.keep { x with inputs := rest } next full s v
  | .emit _ s d => if x.kind.emits then x.emit s d else x
  | .emitTask _ task d =>
    { x with injected := x.injected.map fun i =>
      if i.task = task then { i with disposals := i.disposals ++ [d] } else i }
  | .finish _ task =>
    match x.injected.find? (fun i => i.task = task) with
    | none => x
    | some i =>
      Node.transfer { x with injected := x.injected.filter fun j => j.task ≠ task }
        i.session i.disposals
  | .finalize _ id d =>
    match x.held.find? (fun h => h.1 = id) with
    | none => x
    | some h => Node.emit { x with held := x.held.filter fun j => j.1 ≠ id } h.2.1 d
  | .setGate _ s g =>
    if x.kind = .buffer then { x with gate := upd x.gate s (some g) } else x
  | .trimmed _ s => x.clean false s
  | .cleanAll s => x.clean true s
  | .clear s => x.drop s

def Ev.place : Ev V D → Option Nat
  | .give n _ _ | .exec n _ | .emit n _ _ | .emitTask n _ _ | .finish n _ | .finalize n _ _
  | .setGate n _ _ | .trimmed n _ => some n
  | .cleanAll _ | .clear _ => none

def Concerns (w : World V D) (v : Ev V D) (m : Nat) : Prop :=
  match v.place with
  | some n => m = n
  | none => m ∈ w.contents

instance (w : World V D) (v : Ev V D) (m : Nat) : Decidable (Concerns w v m) := by
  unfold Concerns; split <;> infer_instance

theorem step_off (w : World V D) (n : Nat) (v : Ev V D) (hv : v.place = some n) (m : Nat)
    (hm : m ≠ n) : (step w v).node m = w.node m := by
  cases v <;> simp only [Ev.place, Option.some.injEq, reduceCtorEq] at hv <;> subst hv <;>
    simp only [step, World.clean]
  case give => simp [hm]
  case emitTask => simp [hm]
  case trimmed => simp [hm]
  case exec => split <;> simp [hm]
  all_goals split <;> simp [hm]

theorem step_at (w : World V D) (n : Nat) (v : Ev V D) (hv : v.place = some n) :
    (step w v).node n = local_ w.next (w.node n) v := by
  cases v <;> simp only [Ev.place, Option.some.injEq, reduceCtorEq] at hv <;> subst hv <;>
    simp only [step, World.clean, local_]
  case give => simp
  case emitTask => simp
  case trimmed => simp
  case exec n full => cases (w.node n).inputs <;> simp
  case emit => split <;> simp
  case setGate => split <;> simp
  case finish n task =>
    cases (w.node n).injected.find? (fun i => decide (i.task = task)) <;> simp
  case finalize n id d =>
    cases (w.node n).held.find? (fun h => decide (h.1 = id)) <;> simp

theorem step_node (w : World V D) (h : w.contents.Nodup) (v : Ev V D) (m : Nat) :
    (step w v).node m = if Concerns w v m then local_ w.next (w.node m) v else w.node m := by
  cases hp : v.place with
  | some n =>
    by_cases hm : m = n
    · subst hm
      rw [if_pos (by simp only [Concerns, hp])]
      exact step_at w m v hp
    · rw [if_neg (by simp only [Concerns, hp]; exact hm)]
      exact step_off w n v hp m hm
  | none =>
    by_cases hm : m ∈ w.contents
    · rw [if_pos (by simp only [Concerns, hp]; exact hm)]
      cases v <;> simp only [Ev.place, reduceCtorEq] at hp
      · simp only [step, local_]; rw [cleanAll_node w h, if_pos hm]
      · simp only [step, local_]; rw [clear_node w h, if_pos hm]
    · rw [if_neg (by simp only [Concerns, hp]; exact hm)]
      cases v <;> simp only [Ev.place, reduceCtorEq] at hp
      · simp only [step]; rw [cleanAll_node w h, if_neg hm]
      · simp only [step]; rw [clear_node w h, if_neg hm]

/-! ### The kind of an operation does not change -/

theorem clean_kind (x : Node V D) (b : Bool) (s : Nat) : (x.clean b s).kind = x.kind := by
  unfold Node.clean
  split <;> cases b <;> simp [Node.cleanInputs, Node.cleanDisposals, Node.cleanKeys, *]

theorem keep_kind (x : Node V D) (k : Nat) (b : Bool) (s : Nat) (v : V) :
    (x.keep k b s v).kind = x.kind := by
  unfold Node.keep
  split <;> (try split) <;> simp [*]

theorem local_kind (k : Nat) (x : Node V D) (v : Ev V D) : (local_ k x v).kind = x.kind := by
  cases v <;> simp only [local_]
  case trimmed => exact clean_kind ..
  case cleanAll => exact clean_kind ..
  case exec => split; rfl; exact keep_kind ..
  case clear => unfold Node.drop; split <;> rfl
  all_goals (try split) <;> rfl

theorem step_kind (w : World V D) (h : w.contents.Nodup) (v : Ev V D) (m : Nat) :
    ((step w v).node m).kind = (w.node m).kind := by
  rw [step_node w h]
  split
  · exact local_kind ..
  · rfl

theorem run_kind (w : World V D) (h : w.contents.Nodup) (evs : List (Ev V D)) (m : Nat) :
    ((run w evs).node m).kind = (w.node m).kind := by
  induction evs generalizing w with
  | nil => rfl
  | cons v vs ih =>
    exact (ih (step w v) (by rw [step_contents]; exact h)).trans (step_kind w h v m)

/-! ### Which operations keep what -/

structure Shape (next : Nat) (x : Node V D) : Prop where
  disposals : x.kind.emits = false → x.kind ≠ .injection → ∀ s, x.disposals s = []
  keys : x.kind ≠ .listen → x.kind ≠ .access → ∀ s, x.keys s = false
  batch : x.kind ≠ .collect → ∀ s, x.batch s = []
  held : x.kind ≠ .trim → x.held = []
  injected : x.kind ≠ .injection → x.injected = []
  stored : x.kind ≠ .buffer → ∀ s, x.stored s = []
  tasks : x.injected.Pairwise fun i j => i.task ≠ j.task
  below : ∀ i ∈ x.injected, i.task < next
  gate : x.kind ≠ .buffer → ∀ s, x.gate s = none

theorem Shape.new (k : Nat) (kind : Kind) : Shape k (Node.new kind : Node V D) := by
  constructor <;> simp [Node.new]

theorem Shape.mono {k : Nat} {x : Node V D} (h : Shape k x) {k' : Nat} (hk : k ≤ k') :
    Shape k' x :=
  { h with below := fun i hi => Nat.lt_of_lt_of_le (h.below i hi) hk }

theorem clean_shape {k : Nat} {x : Node V D} (h : Shape k x) (b : Bool) (s : Nat) :
    Shape k (x.clean b s) := by
  obtain ⟨h1, h2, h3, h4, h5, h6, h7, h8, h9⟩ := h
  have hk := clean_kind x b s
  constructor
  · rw [hk]; intro a a' t
    have := h1 a a' t
    unfold Node.clean
    split <;> cases b <;>
      simp [Node.cleanInputs, Node.cleanDisposals, Node.cleanKeys, upd, this]
  · rw [hk]; intro a a' t
    have := h2 a a' t
    unfold Node.clean
    split <;> cases b <;>
      simp [Node.cleanInputs, Node.cleanDisposals, Node.cleanKeys, upd, this]
  · rw [hk]; intro a t
    have := h3 a t
    unfold Node.clean
    split <;> cases b <;>
      simp [Node.cleanInputs, Node.cleanDisposals, Node.cleanKeys, upd, this]
  · rw [hk]; intro a
    have := h4 a
    unfold Node.clean
    split <;> cases b <;>
      simp [Node.cleanInputs, Node.cleanDisposals, Node.cleanKeys, upd, this]
  · rw [hk]; intro a
    have := h5 a
    unfold Node.clean
    split <;> cases b <;>
      simp [Node.cleanInputs, Node.cleanDisposals, Node.cleanKeys, upd, this]
  · rw [hk]; intro a t
    have := h6 a t
    unfold Node.clean
    split <;> cases b <;>
      simp [Node.cleanInputs, Node.cleanDisposals, Node.cleanKeys, upd, this]
  · unfold Node.clean
    split <;> cases b <;>
      simp only [Node.cleanInputs, Node.cleanDisposals, Node.cleanKeys, if_true, if_false,
        Bool.false_eq_true] <;>
      first
        | exact h7
        | exact h7.filter _
  · unfold Node.clean
    split <;> cases b <;>
      simp only [Node.cleanInputs, Node.cleanDisposals, Node.cleanKeys, if_true, if_false,
        Bool.false_eq_true] <;>
      first
        | exact h8
        | exact fun i hi => h8 i (List.mem_filter.1 hi).1
  · rw [hk]; intro a t
    have := h9 a t
    unfold Node.clean
    split <;> cases b <;>
      simp [Node.cleanInputs, Node.cleanDisposals, Node.cleanKeys, upd, this]

theorem local_shape {k : Nat} {x : Node V D} (h : Shape k x) (v : Ev V D) :
    Shape (k + 1) (local_ k x v) := by
  have hm := h.mono (Nat.le_succ k)
  cases v with
  | trimmed n s => exact clean_shape hm _ _
  | cleanAll s => exact clean_shape hm _ _
  | clear s =>
    simp only [local_, Node.drop]
    split
    · rename_i hb
      exact { hm with stored := fun a => absurd hb a }
    · exact hm
  | give n s v => exact { hm with }
  | exec n full =>
    simp only [local_]
    split
    · exact hm
    · rename_i s v rest e
      unfold Node.keep
      split
      · rename_i hk; exact { hm with keys := fun a _ => absurd hk a }
      · rename_i hk; exact { hm with keys := fun _ a => absurd hk a }
      · rename_i hk; exact { hm with batch := fun a => absurd hk a }
      · rename_i hk
        split
        · exact { hm with }
        · exact { hm with held := fun a => absurd hk a }
      · rename_i hk
        refine { hm with injected := fun a => absurd hk a, tasks := ?_, below := ?_ }
        · show (x.injected ++ [_]).Pairwise _
          rw [List.pairwise_append]
          refine ⟨h.tasks, List.pairwise_singleton .., ?_⟩
          intro a ha b hb
          rw [List.mem_singleton] at hb
          subst hb
          exact Nat.ne_of_lt (h.below a ha)
        · intro i hi
          rcases List.mem_append.1 hi with hi | hi
          · exact hm.below i hi
          · rw [List.mem_singleton] at hi; subst hi; exact Nat.lt_succ_self k
      · rename_i hk
        split
        · exact { hm with }
        · exact { hm with stored := fun a => absurd hk a }
      · exact { hm with }
  | emit n s d =>
    simp only [local_]
    split
    · rename_i he
      exact { hm with disposals := fun a => absurd (he.symm.trans a) (by simp) }
    · exact hm
  | emitTask n task d =>
    refine { hm with injected := fun a => ?_, tasks := ?_, below := ?_ }
    · show x.injected.map _ = []
      rw [h.injected a]; rfl
    · show (x.injected.map _).Pairwise _
      rw [List.pairwise_map]
      refine h.tasks.imp ?_
      intro a b hab
      split <;> split <;> exact hab
    · intro i hi
      obtain ⟨j, hj, rfl⟩ := List.mem_map.1 hi
      split <;> exact hm.below j hj
  | finish n task =>
    simp only [local_]
    split
    · exact hm
    · rename_i i e
      have hk : x.kind = .injection := by
        refine Classical.byContradiction fun hk => ?_
        rw [h.injected hk] at e
        simp at e
      refine { hm with
        disposals := fun _ a => absurd hk a, injected := fun a => absurd hk a, tasks := ?_, below := ?_ }
      · exact h.tasks.filter _
      · exact fun i hi => hm.below i (List.mem_filter.1 hi).1
  | finalize n id d =>
    simp only [local_]
    split
    · exact hm
    · rename_i i e
      have hk : x.kind = .trim := by
        refine Classical.byContradiction fun hk => ?_
        rw [h.held hk] at e
        simp at e
      refine { hm with
        disposals := fun a => ?_, held := fun a => absurd hk a }
      have a : x.kind.emits = false := a
      rw [hk] at a
      exact absurd a (by simp [Kind.emits])
  | setGate n s g =>
    simp only [local_]
    split
    · rename_i hb
      exact { hm with gate := fun a => absurd hb a }
    · exact hm

theorem step_next (w : World V D) (v : Ev V D) :
    w.next ≤ (step w v).next ∧
    (∀ n full s a rest, v = .exec n full → (w.node n).inputs = (s, a) :: rest →
      (step w v).next = w.next + 1) := by
  cases v with
  | cleanAll s =>
    refine ⟨Nat.le_of_eq ?_, nofun⟩
    exact (cleanAll_rest (·.next) (fun _ _ _ => rfl) w s).symm
  | clear s =>
    refine ⟨Nat.le_of_eq ?_, nofun⟩
    exact (clear_rest (·.next) (fun _ _ _ => rfl) w s).symm
  | exec n full =>
    constructor
    · simp only [step]; split <;> simp
    · intro n' full' s a rest e hi
      cases e
      simp only [step, hi, set_next]
  | give n s v => exact ⟨Nat.le_refl _, nofun⟩
  | trimmed n s => exact ⟨Nat.le_refl _, nofun⟩
  | emitTask n task d => exact ⟨Nat.le_refl _, nofun⟩
  | emit n s d => refine ⟨?_, nofun⟩; simp only [step]; split <;> simp
  | finish n t => refine ⟨?_, nofun⟩; simp only [step]; split <;> simp
  | finalize n i d => refine ⟨?_, nofun⟩; simp only [step]; split <;> simp
  | setGate n s g => refine ⟨?_, nofun⟩; simp only [step]; split <;> simp

/-- Only an execution that takes an input uses the next entity. -/
theorem local_below {k : Nat} {x : Node V D} (h : Shape k x) (v : Ev V D)
    (hv : ∀ n full s a rest, v = .exec n full → x.inputs ≠ (s, a) :: rest) :
    ∀ i ∈ (local_ k x v).injected, i.task < k := by
  cases v with
  | trimmed n s => exact (clean_shape h _ _).below
  | cleanAll s => exact (clean_shape h _ _).below
  | clear s => simp only [local_, Node.drop]; split <;> exact h.below
  | give n s v => exact h.below
  | exec n full =>
    simp only [local_]
    split
    · exact h.below
    · rename_i s v rest e; exact absurd e (hv n full s v rest rfl)
  | emit n s d => simp only [local_]; split <;> exact h.below
  | emitTask n task d =>
    intro i hi
    obtain ⟨j, hj, rfl⟩ := List.mem_map.1 hi
    split <;> exact h.below j hj
  | finish n task =>
    simp only [local_]
    split
    · exact h.below
    · exact fun i hi => h.below i (List.mem_filter.1 hi).1
  | finalize n id d => simp only [local_]; split <;> exact h.below
  | setGate n s g => simp only [local_]; split <;> exact h.below

structure Inv (w : World V D) : Prop where
  nodup : w.contents.Nodup
  shape : ∀ n, Shape w.next (w.node n)

theorem Inv.init (c : List Nat) (h : c.Nodup) (kind : Nat → Kind) :
    Inv (World.init c kind : World V D) :=
  ⟨h, fun n => Shape.new _ _⟩

theorem Inv.step {w : World V D} (h : Inv w) (v : Ev V D) : Inv (step w v) := by
  refine ⟨by rw [step_contents]; exact h.nodup, fun m => ?_⟩
  rw [step_node w h.nodup]
  split
  · rename_i hc
    have hs := local_shape (h.shape m) v
    by_cases hv : ∃ n full s a rest, v = .exec n full ∧ (w.node m).inputs = (s, a) :: rest
    · obtain ⟨n, full, s, a, rest, e, hi⟩ := hv
      subst e
      have hc : m = n := hc
      subst hc
      rw [(step_next w _).2 m full s a rest rfl hi]
      exact hs
    · refine Shape.mono (k := w.next) { hs with below := ?_ } (step_next w v).1
      exact local_below (h.shape m) v
        fun n full s a rest e hi => hv ⟨n, full, s, a, rest, e, hi⟩
  · exact (h.shape m).mono (step_next w v).1

theorem Inv.run {w : World V D} (h : Inv w) (evs : List (Ev V D)) : Inv (run w evs) := by
  induction evs generalizing w with
  | nil => exact h
  | cons v vs ih => exact ih (h.step v)

/-! ### A session that has been cleaned -/

structure Idle (x : Node V D) (s : Nat) : Prop where
  inputs : ∀ i ∈ x.inputs, i.1 ≠ s
  keys : x.keys s = false
  batch : x.batch s = []
  held : ∀ h ∈ x.held, h.2.1 ≠ s
  injected : ∀ i ∈ x.injected, i.session ≠ s

theorem clean_idle {k : Nat} {x : Node V D} (h : Shape k x) (s : Nat) : Idle (x.clean true s) s := by
  constructor
  · unfold Node.clean
    split <;> simp [Node.cleanInputs, Node.cleanDisposals, Node.cleanKeys]
  · unfold Node.clean
    split <;> simp [Node.cleanInputs, Node.cleanDisposals, Node.cleanKeys] <;>
      (apply h.keys <;> simp [*])
  · unfold Node.clean
    split <;> simp [Node.cleanInputs, Node.cleanDisposals, Node.cleanKeys] <;>
      (apply h.batch <;> simp [*])
  · unfold Node.clean
    split <;> simp [Node.cleanInputs, Node.cleanDisposals, Node.cleanKeys] <;>
      (intro a b c hm; rw [h.held (by simp [*])] at hm; simp at hm)
  · unfold Node.clean
    split <;> simp [Node.cleanInputs, Node.cleanDisposals, Node.cleanKeys] <;>
      (intro a hm; rw [h.injected (by simp [*])] at hm; simp at hm)

theorem clean_disposals {k : Nat} {x : Node V D} (h : Shape k x) (s : Nat) :
    (x.clean true s).disposals s = if x.kind.forgetful then x.disposals s else [] := by
  unfold Node.clean
  split <;> simp [Node.cleanInputs, Node.cleanDisposals, Node.cleanKeys, Kind.forgetful, *] <;>
    (apply h.disposals <;> simp [*, Kind.emits])

theorem clean_stored (x : Node V D) (b : Bool) (s : Nat) : (x.clean b s).stored = x.stored := by
  unfold Node.clean
  split <;> cases b <;> rfl

theorem clean_gate (x : Node V D) (b : Bool) (s : Nat) : (x.clean b s).gate = x.gate := by
  unfold Node.clean
  split <;> cases b <;> rfl

/-- Cleaning another session. -/
theorem clean_same (x : Node V D) (b : Bool) (s t : Nat) (h : t ≠ s) : Same (x.clean b s) x t := by
  have key : ∀ {A : Type} (l : List A) (f : A → Nat),
      (l.filter (fun i => f i ≠ s)).filter (fun i => f i = t) = l.filter fun i => f i = t := by
    intro A l f
    rw [List.filter_filter]
    congr 1
    funext i
    by_cases hi : f i = t <;> simp [hi, h]
  have k1 := key x.inputs (·.1)
  have k2 := key x.held (·.2.1)
  have k3 := key x.injected (·.session)
  unfold Node.clean
  split <;> cases b <;>
    simp only [Node.cleanInputs, Node.cleanDisposals, Node.cleanKeys, if_true, if_false,
      Bool.false_eq_true] <;>
    constructor <;>
    first
      | rfl
      | exact k1
      | exact k2
      | exact k3
      | exact upd_ne _ _ h

theorem Same.refl (x : Node V D) (s : Nat) : Same x x s := by constructor <;> rfl

theorem Same.idle {x y : Node V D} {s : Nat} (h : Same x y s) (hy : Idle y s) : Idle x s := by
  have key : ∀ {A : Type} (l l' : List A) (f : A → Nat),
      l.filter (fun i => f i = s) = l'.filter (fun i => f i = s) → (∀ i ∈ l', f i ≠ s) →
      ∀ i ∈ l, f i ≠ s := by
    intro A l l' f e hl i hi hs
    have : i ∈ l.filter fun i => f i = s := List.mem_filter.2 ⟨hi, by simp [hs]⟩
    rw [e] at this
    exact hl i (List.mem_filter.1 this).1 hs
  exact ⟨key _ _ (fun i : Nat × V => i.1) h.inputs hy.inputs, h.keys.trans hy.keys, h.batch.trans hy.batch,
    key _ _ (fun i : Nat × Nat × V => i.2.1) h.held hy.held, key _ _ (fun i : Injected D => i.session) h.injected hy.injected⟩

/-- What an event that is not about the session changes. -/
theorem local_quiet {x : Node V D} {s : Nat} (h : Idle x s) (k : Nat) (v : Ev V D)
    (hq : Quiet s v) :
    Idle (local_ k x v) s ∧ (local_ k x v).disposals s = x.disposals s ∧
      (local_ k x v).stored s = x.stored s ∧ (local_ k x v).gate s = x.gate s := by
  cases v with
  | give n t v =>
    refine ⟨{ h with inputs := ?_ }, rfl, rfl, rfl⟩
    intro i hi
    rcases List.mem_append.1 hi with hi | hi
    · exact h.inputs i hi
    · rw [List.mem_singleton] at hi; subst hi; exact hq
  | exec n full =>
    simp only [local_]
    split
    · exact ⟨h, rfl, rfl, rfl⟩
    · rename_i t a rest e
      have ht : t ≠ s := h.inputs (t, a) (by rw [e]; exact List.mem_cons_self)
      have hr : ∀ i ∈ rest, i.1 ≠ s := fun i hi => h.inputs i (by rw [e]; exact List.mem_cons_of_mem _ hi)
      have hu : ∀ {A : Type} (f : Nat → A) (a : A), upd f t a s = f s :=
        fun f a => upd_ne f a (Ne.symm ht)
      unfold Node.keep
      split
      · exact ⟨{ h with inputs := hr, keys := (hu ..).trans h.keys }, rfl, rfl, rfl⟩
      · exact ⟨{ h with inputs := hr, keys := (hu ..).trans h.keys }, rfl, rfl, rfl⟩
      · exact ⟨{ h with inputs := hr, batch := (hu ..).trans h.batch }, rfl, rfl, rfl⟩
      · split
        · exact ⟨{ h with inputs := hr }, rfl, rfl, rfl⟩
        · refine ⟨{ h with inputs := hr, held := ?_ }, rfl, rfl, rfl⟩
          intro i hi
          rcases List.mem_append.1 hi with hi | hi
          · exact h.held i hi
          · rw [List.mem_singleton] at hi; subst hi; exact ht
      · refine ⟨{ h with inputs := hr, injected := ?_ }, rfl, rfl, rfl⟩
        intro i hi
        rcases List.mem_append.1 hi with hi | hi
        · exact h.injected i hi
        · rw [List.mem_singleton] at hi; subst hi; exact ht
      · split
        · exact ⟨{ h with inputs := hr }, rfl, rfl, rfl⟩
        · exact ⟨{ h with inputs := hr }, rfl, hu .., rfl⟩
      · exact ⟨{ h with inputs := hr }, rfl, rfl, rfl⟩
  | emit n t d =>
    simp only [local_]
    split
    · exact ⟨{ h with }, upd_ne _ _ (Ne.symm hq), rfl, rfl⟩
    · exact ⟨h, rfl, rfl, rfl⟩
  | emitTask n task d =>
    refine ⟨{ h with injected := ?_ }, rfl, rfl, rfl⟩
    intro i hi
    obtain ⟨j, hj, rfl⟩ := List.mem_map.1 hi
    split <;> exact h.injected j hj
  | finish n task =>
    simp only [local_]
    split
    · exact ⟨h, rfl, rfl, rfl⟩
    · rename_i i e
      have hi := h.injected i (List.mem_of_find?_eq_some e)
      refine ⟨{ h with injected := ?_ }, upd_ne _ _ (Ne.symm hi), rfl, rfl⟩
      exact fun j hj => h.injected j (List.mem_filter.1 hj).1
  | finalize n id d =>
    simp only [local_]
    split
    · exact ⟨h, rfl, rfl, rfl⟩
    · rename_i i e
      have hi := h.held i (List.mem_of_find?_eq_some e)
      refine ⟨{ h with held := ?_ }, upd_ne _ _ (Ne.symm hi), rfl, rfl⟩
      exact fun j hj => h.held j (List.mem_filter.1 hj).1
  | setGate n t g =>
    simp only [local_]
    split
    · exact ⟨{ h with }, rfl, rfl, upd_ne _ _ (Ne.symm hq)⟩
    · exact ⟨h, rfl, rfl, rfl⟩
  | trimmed n t =>
    simp only [local_]
    by_cases ht : t = s
    · subst ht
      refine ⟨?_, ?_, by rw [clean_stored], by rw [clean_gate]⟩
      · constructor
        · intro i hi
          refine h.inputs i ?_
          revert hi
          unfold Node.clean
          split <;> simp [Node.cleanInputs, Node.cleanDisposals, Node.cleanKeys] <;>
            (intro a _; exact a)
        · have := h.keys
          unfold Node.clean
          split <;> simp [Node.cleanInputs, Node.cleanDisposals, Node.cleanKeys, this]
        · have := h.batch
          unfold Node.clean
          split <;> simp [Node.cleanInputs, Node.cleanDisposals, Node.cleanKeys, this]
        · intro i hi
          refine h.held i ?_
          revert hi
          unfold Node.clean
          split <;> simp [Node.cleanInputs, Node.cleanDisposals, Node.cleanKeys] <;>
            (intro a _; exact a)
        · intro i hi
          refine h.injected i ?_
          revert hi
          unfold Node.clean
          split <;> simp [Node.cleanInputs, Node.cleanDisposals, Node.cleanKeys] <;>
            (intro a _; exact a)
      · unfold Node.clean
        split <;> simp [Node.cleanInputs, Node.cleanDisposals, Node.cleanKeys]
    · have hs := clean_same x false t s (Ne.symm ht)
      exact ⟨hs.idle h, hs.disposals, hs.stored, hs.gate⟩
  | cleanAll t =>
    have hs := clean_same x true t s (Ne.symm hq)
    exact ⟨hs.idle h, hs.disposals, hs.stored, hs.gate⟩
  | clear t =>
    simp only [local_, Node.drop]
    split
    · exact ⟨{ h with }, rfl, upd_ne _ _ (Ne.symm hq), rfl⟩
    · exact ⟨h, rfl, rfl, rfl⟩

theorem run_quiet {w : World V D} (hw : w.contents.Nodup) {n s : Nat} (h : Idle (w.node n) s) :
    ∀ (evs : List (Ev V D)), (∀ v ∈ evs, Quiet s v) →
    Idle ((run w evs).node n) s ∧ ((run w evs).node n).disposals s = (w.node n).disposals s ∧
      ((run w evs).node n).stored s = (w.node n).stored s ∧
      ((run w evs).node n).gate s = (w.node n).gate s := by
  intro evs
  induction evs generalizing w with
  | nil => exact fun _ => ⟨h, rfl, rfl, rfl⟩
  | cons v vs ih =>
    intro hq
    have h1 : Idle ((step w v).node n) s ∧ ((step w v).node n).disposals s = (w.node n).disposals s ∧
        ((step w v).node n).stored s = (w.node n).stored s ∧
        ((step w v).node n).gate s = (w.node n).gate s := by
      rw [step_node w hw]
      split
      · exact local_quiet h _ v (hq v List.mem_cons_self)
      · exact ⟨h, rfl, rfl, rfl⟩
    have := ih (w := step w v) (by rw [step_contents]; exact hw) h1.1
      fun u hu => hq u (List.mem_cons_of_mem _ hu)
    exact ⟨this.1, this.2.1.trans h1.2.1, this.2.2.1.trans h1.2.2.1, this.2.2.2.trans h1.2.2.2⟩

/-! ### What is never removed -/

theorem prefix_upd {s t : Nat} (f : Nat → List D) (l : List D) :
    f s <+: upd f t (f t ++ l) s := by
  by_cases h : s = t
  · subst h; rw [upd_same]; exact List.prefix_append _ _
  · rw [upd_ne _ _ h]; exact List.prefix_refl _

theorem local_forgetful {x : Node V D} (hk : x.kind.forgetful = true) (k s : Nat) (v : Ev V D) :
    x.disposals s <+: (local_ k x v).disposals s := by
  have hc : ∀ b t, (x.clean b t).disposals = x.disposals := by
    intro b t
    unfold Node.clean
    split <;> simp [Kind.forgetful, *] at hk <;> cases b <;> rfl
  cases v <;> simp only [local_]
  case give => exact List.prefix_refl _
  case emitTask => exact List.prefix_refl _
  case exec =>
    split
    · exact List.prefix_refl _
    · unfold Node.keep
      split <;> (try split) <;> exact List.prefix_refl _
  case emit =>
    split
    · exact prefix_upd _ _
    · exact List.prefix_refl _
  case finish =>
    split
    · exact List.prefix_refl _
    · exact prefix_upd _ _
  case finalize =>
    split
    · exact List.prefix_refl _
    · exact prefix_upd _ _
  case setGate => split <;> exact List.prefix_refl _
  case trimmed => rw [hc]; exact List.prefix_refl _
  case cleanAll => rw [hc]; exact List.prefix_refl _
  case clear => unfold Node.drop; split <;> exact List.prefix_refl _

theorem local_gate {x : Node V D} (k s : Nat) (v : Ev V D) (h : (x.gate s).isSome) :
    ((local_ k x v).gate s).isSome := by
  cases v <;> simp only [local_]
  case give => exact h
  case emitTask => exact h
  case exec =>
    split
    · exact h
    · unfold Node.keep
      split <;> (try split) <;> exact h
  case emit => split <;> exact h
  case finish => split <;> exact h
  case finalize => split <;> exact h
  case setGate n t g =>
    split
    · by_cases ht : s = t
      · subst ht; simp
      · simp [upd_ne _ _ ht, h]
    · exact h
  case trimmed => rw [clean_gate]; exact h
  case cleanAll => rw [clean_gate]; exact h
  case clear => unfold Node.drop; split <;> exact h

theorem step_helpers (w : World V D) (v : Ev V D) : w.helpers <+: (step w v).helpers := by
  cases v <;> simp only [step]
  case cleanAll s => rw [cleanAll_rest (·.helpers) (fun _ _ _ => rfl) w s]; exact List.prefix_refl _
  case clear s => rw [clear_rest (·.helpers) (fun _ _ _ => rfl) w s]; exact List.prefix_refl _
  case exec n full =>
    split
    · exact List.prefix_refl _
    · simp only [set_helpers]
      split
      · exact List.prefix_append _ _
      · exact List.prefix_refl _
  case give => exact List.prefix_refl _
  case emitTask => exact List.prefix_refl _
  case trimmed => exact List.prefix_refl _
  all_goals split <;> exact List.prefix_refl _

/-! ### The disposals of a session -/

def Node.all (x : Node V D) (s : Nat) : List D :=
  x.disposals s ++ x.injected.flatMap fun i => if i.session = s then i.disposals else []

theorem flatMap_split (l : List Nat) (f g : Nat → List D) :
    (l.flatMap fun n => f n ++ g n).Perm (l.flatMap f ++ l.flatMap g) := by
  induction l with
  | nil => exact .refl _
  | cons a l ih =>
    simp only [List.flatMap_cons]
    refine (List.Perm.append_left _ ih).trans ?_
    simp only [List.append_assoc]
    refine List.Perm.append_left _ ?_
    rw [← List.append_assoc, ← List.append_assoc]
    exact List.Perm.append_right _ List.perm_append_comm

theorem total_perm (w : World V D) (s : Nat) :
    (w.contents.flatMap fun n => (w.node n).all s).Perm (w.listing s ++ w.open s) :=
  flatMap_split _ _ _

theorem flatMap_one {l : List Nat} (hl : l.Nodup) {n : Nat} (hn : n ∈ l) (f g : Nat → List D)
    (e : List D) (ho : ∀ m, m ≠ n → g m = f m) (hp : (g n).Perm (f n ++ e)) :
    (l.flatMap g).Perm (l.flatMap f ++ e) := by
  induction l with
  | nil => cases hn
  | cons a l ih =>
    have hd := List.nodup_cons.1 hl
    simp only [List.flatMap_cons]
    by_cases ha : a = n
    · subst ha
      have : l.flatMap g = l.flatMap f := by
        clear ih hl hn
        have hd := hd.1
        induction l with
        | nil => rfl
        | cons b l ih =>
          simp only [List.mem_cons, not_or] at hd
          simp only [List.flatMap_cons, ho b (Ne.symm hd.1)]
          rw [ih ⟨hd.2, by rename_i h; exact (List.nodup_cons.1 h.2).2⟩ hd.2]
      rw [this]
      refine (List.Perm.append_right _ hp).trans ?_
      rw [List.append_assoc, List.append_assoc]
      exact List.Perm.append_left _ List.perm_append_comm
    · have hn' : n ∈ l := by
        rcases List.mem_cons.1 hn with h | h
        · exact absurd h.symm ha
        · exact h
      rw [ho a ha, List.append_assoc]
      exact List.Perm.append_left _ (ih hd.2 hn')

/-- What an event emits, for the state of the operation it is about. -/
def emits (x : Node V D) (s : Nat) : Ev V D → List D
  | .emit _ s' d => if x.kind.emits = true ∧ s' = s then [d] else []
  | .emitTask _ task d => if x.injected.any (fun i => i.task = task ∧ i.session = s) then [d] else []
  | .finalize _ id d =>
    match x.held.find? (fun h => h.1 = id) with
    | some h => if h.2.1 = s then [d] else []
    | none => []
  | _ => []

theorem task_emit (l : List (Injected D)) (task s : Nat) (d : D)
    (hl : l.Pairwise fun i j => i.task ≠ j.task) :
    ((l.map fun i => if i.task = task then { i with disposals := i.disposals ++ [d] } else i).flatMap
      fun i => if i.session = s then i.disposals else []).Perm
    ((l.flatMap fun i => if i.session = s then i.disposals else []) ++
      if l.any (fun i => i.task = task ∧ i.session = s) then [d] else []) := by
  induction l with
  | nil => exact .refl _
  | cons a l ih =>
    have hp := List.pairwise_cons.1 hl
    have ih := ih hp.2
    simp only [List.map_cons, List.flatMap_cons, List.any_cons]
    by_cases ha : a.task = task
    · have hno : ∀ i ∈ l, i.task ≠ task := fun i hi e => hp.1 i hi (ha.trans e.symm)
      have hm : (l.map fun i => if i.task = task then { i with disposals := i.disposals ++ [d] } else i)
          = l := by
        rw [List.map_congr_left (g := id) (fun i hi => by simp [hno i hi])]
        simp
      have hany : l.any (fun i => i.task = task ∧ i.session = s) = false := by
        simp only [List.any_eq_false, decide_eq_true_eq]
        exact fun i hi h => hno i hi h.1
      simp only [hm, hany]
      by_cases hs : a.session = s
      · simp only [ha, hs, if_true, and_self, decide_true, Bool.or_false]
        simp only [List.append_assoc]
        exact List.Perm.append_left _ List.perm_append_comm
      · simp [ha, hs]
    · simp only [ha, if_false, false_and, decide_false, Bool.false_or]
      refine (List.Perm.append_left _ ih).trans ?_
      rw [List.append_assoc]

theorem task_finish (l : List (Injected D)) (task s : Nat) (i : Injected D)
    (hl : l.Pairwise fun i j => i.task ≠ j.task) (hf : l.find? (fun i => i.task = task) = some i) :
    (l.flatMap fun i => if i.session = s then i.disposals else []).Perm
    ((if i.session = s then i.disposals else []) ++
      (l.filter fun j => j.task ≠ task).flatMap fun i => if i.session = s then i.disposals else []) := by
  induction l with
  | nil => simp at hf
  | cons a l ih =>
    have hp := List.pairwise_cons.1 hl
    by_cases ha : a.task = task
    · have hai : a = i := by simpa [List.find?_cons, ha] using hf
      subst hai
      have hm : (l.filter fun j => j.task ≠ task) = l := by
        rw [List.filter_eq_self]
        intro j hj
        simp only [decide_eq_true_eq]
        exact fun e => hp.1 j hj (ha.trans e.symm)
      rw [List.filter_cons]
      simp only [ha, ne_eq, not_true_eq_false, decide_false, Bool.false_eq_true, if_false]
      simp only [ne_eq] at hm
      rw [hm]
      exact .refl _
    · have hf' : l.find? (fun i => i.task = task) = some i := by
        simpa [List.find?_cons, ha] using hf
      have ih := ih hp.2 hf'
      rw [List.filter_cons]
      simp only [ha, ne_eq, not_false_eq_true, decide_true, if_true, List.flatMap_cons]
      refine (List.Perm.append_left _ ih).trans ?_
      rw [← List.append_assoc, ← List.append_assoc]
      exact List.Perm.append_right _ List.perm_append_comm

theorem clean_all_false {x : Node V D} {s t : Nat} (h : t ≠ s ∨ x.kind ≠ .injection) :
    (x.clean false t).all s = x.all s := by
  by_cases hk : x.kind = .injection
  · have ht : t ≠ s := h.resolve_right (not_not_intro hk)
    have hs := clean_same x false t s (Ne.symm ht)
    unfold Node.all
    rw [hs.disposals]
    congr 1
    have key : ∀ l : List (Injected D), (l.flatMap fun i => if i.session = s then i.disposals else [])
        = (l.filter fun i => i.session = s).flatMap fun i => if i.session = s then i.disposals else [] := by
      intro l
      induction l with
      | nil => rfl
      | cons a l ih =>
        by_cases ha : a.session = s <;> simp [List.filter_cons, ha, ih]
    rw [key, hs.injected, ← key]
  · unfold Node.all Node.clean
    split <;> first | rfl | (rename_i e; exact absurd e hk)

theorem local_all {k : Nat} {x : Node V D} (h : Shape k x) (s : Nat) (v : Ev V D)
    (hc : v ≠ .cleanAll s) (ht : ∀ n, v = .trimmed n s → x.kind ≠ .injection) :
    ((local_ k x v).all s).Perm (x.all s ++ emits x s v) := by
  have key : ∀ (y : Node V D) (t : Nat) (l : List D), y.injected = x.injected →
      y.disposals = upd x.disposals t (x.disposals t ++ l) →
      (y.all s).Perm (x.all s ++ if t = s then l else []) := by
    intro y t l hi hd
    unfold Node.all
    rw [hi, hd]
    by_cases e : t = s
    · subst e
      rw [upd_same, if_pos rfl, List.append_assoc, List.append_assoc]
      exact List.Perm.append_left _ List.perm_append_comm
    · rw [upd_ne _ _ (Ne.symm e), if_neg e, List.append_nil]
  cases v with
  | give n t a => simp only [emits, List.append_nil]; exact .refl _
  | exec n full =>
    simp only [emits, List.append_nil, local_]
    split
    · exact .refl _
    · unfold Node.keep
      split <;> (try split) <;> (try exact .refl _)
      unfold Node.all
      simp only [List.flatMap_append, List.flatMap_cons, List.flatMap_nil, ite_self, List.append_nil]
      exact .refl _
  | emit n t d =>
    simp only [local_, emits]
    split
    · rename_i he
      have := key (x.emit t d) t [d] rfl rfl
      simpa [he] using this
    · rename_i he
      simp [he]
  | emitTask n task d =>
    simp only [local_, emits]
    unfold Node.all
    rw [List.append_assoc]
    exact List.Perm.append_left _ (task_emit x.injected task s d h.tasks)
  | finish n task =>
    simp only [local_, emits, List.append_nil]
    split
    · exact .refl _
    · rename_i i e
      have hp := task_finish x.injected task s i h.tasks e
      unfold Node.all
      refine List.Perm.trans ?_ (List.Perm.append_left _ hp.symm)
      show (upd x.disposals i.session (x.disposals i.session ++ i.disposals) s ++ _).Perm _
      by_cases hs : i.session = s
      · subst hs
        rw [upd_same, if_pos rfl, List.append_assoc]
        exact .refl _
      · rw [upd_ne _ _ (Ne.symm hs), if_neg hs, List.nil_append]
        exact .refl _
  | finalize n id d =>
    simp only [local_, emits]
    cases hf : x.held.find? (fun h => h.1 = id) with
    | none => simp
    | some i =>
      exact key _ i.2.1 [d] rfl rfl
  | setGate n t g => simp only [emits, List.append_nil, local_]; split <;> exact .refl _
  | trimmed n t =>
    simp only [emits, List.append_nil, local_]
    rw [clean_all_false]
    by_cases e : t = s
    · subst e; exact .inr (ht n rfl)
    · exact .inl e
  | cleanAll t =>
    simp only [emits, List.append_nil, local_]
    have e : s ≠ t := fun e => hc (by rw [e])
    have hs := clean_same x true t s e
    unfold Node.all
    rw [hs.disposals]
    have hk : ∀ l : List (Injected D), (l.flatMap fun i => if i.session = s then i.disposals else [])
        = (l.filter fun i => i.session = s).flatMap fun i => if i.session = s then i.disposals else [] := by
      intro l
      induction l with
      | nil => rfl
      | cons a l ih =>
        by_cases ha : a.session = s <;> simp [List.filter_cons, ha, ih]
    rw [hk, hs.injected, ← hk]
  | clear t =>
    simp only [emits, List.append_nil, local_, Node.drop]
    split <;> exact .refl _

theorem emitted_cons (w : World V D) (s : Nat) (v : Ev V D) (vs : List (Ev V D)) :
    emitted w s (v :: vs) =
      (match v.place with | some n => emits (w.node n) s v | none => []) ++
        emitted (step w v) s vs := by
  cases v <;> rfl

theorem step_all {w : World V D} (h : Inv w) (s : Nat) (v : Ev V D)
    (hin : ∀ n, v.place = some n → n ∈ w.contents)
    (hc : v ≠ .cleanAll s) (ht : ∀ n, v = .trimmed n s → (w.node n).kind ≠ .injection) :
    (w.contents.flatMap fun n => ((step w v).node n).all s).Perm
      ((w.contents.flatMap fun n => (w.node n).all s) ++
        match v.place with | some n => emits (w.node n) s v | none => []) := by
  cases hp : v.place with
  | some n =>
    refine flatMap_one h.nodup (hin n hp) _ _ _ ?_ ?_
    · intro m hm
      rw [step_node w h.nodup, if_neg]
      simp only [Concerns, hp]
      exact hm
    · rw [step_node w h.nodup, if_pos (by simp only [Concerns, hp])]
      refine local_all (h.shape n) s v hc ?_
      intro m e
      subst e
      have e : m = n := by simpa [Ev.place] using hp
      subst e
      exact ht m rfl
  | none =>
    simp only [List.append_nil]
    have : ∀ l : List Nat, (l.flatMap fun n => ((step w v).node n).all s).Perm
        (l.flatMap fun n => (w.node n).all s) := by
      intro l
      induction l with
      | nil => exact .refl _
      | cons a l ih =>
        simp only [List.flatMap_cons]
        refine List.Perm.append ?_ ih
        rw [step_node w h.nodup]
        split
        · have := local_all (h.shape a) s v hc (fun n e => by subst e; simp [Ev.place] at hp)
          cases v <;> simp [Ev.place] at hp <;> simpa [emits] using this
        · exact .refl _
    exact this _

theorem run_all {w : World V D} (h : Inv w) (s : Nat) : ∀ (evs : List (Ev V D)),
    Within w.contents evs → (∀ v ∈ evs, v ≠ .cleanAll s) →
    (∀ n, Ev.trimmed n s ∈ evs → (w.node n).kind ≠ .injection) →
    (w.contents.flatMap fun n => ((run w evs).node n).all s).Perm
      ((w.contents.flatMap fun n => (w.node n).all s) ++ emitted w s evs) := by
  intro evs
  induction evs generalizing w with
  | nil => intros; simp [emitted, run]
  | cons v vs ih =>
    intro hin hc ht
    have h1 := step_all h s v
      (by
        intro n hp
        have := hin v List.mem_cons_self
        cases v <;> simp only [Ev.place, Option.some.injEq, reduceCtorEq] at hp <;> subst hp <;>
          exact this)
      (hc v List.mem_cons_self)
      (fun n e => ht n (by rw [e]; exact List.mem_cons_self))
    have h2 := ih (h.step v)
      (by rw [step_contents]; exact fun u hu => hin u (List.mem_cons_of_mem _ hu))
      (fun u hu => hc u (List.mem_cons_of_mem _ hu))
      (fun n hn => by
        rw [step_kind w h.nodup]
        exact ht n (List.mem_cons_of_mem _ hn))
    rw [step_contents] at h2
    rw [emitted_cons]
    show (w.contents.flatMap fun n => ((run (step w v) vs).node n).all s).Perm _
    refine h2.trans ?_
    rw [← List.append_assoc]
    exact List.Perm.append_right _ h1

end Verif.Residue
