import Verif.Graph.Complete

/-
Property theorems C13 and C14. `isDownstreamOf` and `checkReachability` model
src/operation.rs.
-/
namespace Verif.Graph

/-! ### C13 -/

/-- The full statement of C13: for distinct operations the query terminates and answers
whether a non-empty path of connections, of any kind, leads from one to the other. -/
def C13_full : Prop :=
  ∀ (w : Net), OneOutput w → ∀ (a b : Nat), a ≠ b →
    ∃ n ans, (∀ fuel, n ≤ fuel → isDownstreamOf w fuel a b = some ans) ∧
      (ans = true ↔ Path (allTargets w) a b)

/-- **C13** for workflows without connections from named streams. Missing: paths that
use a named stream output; `immediately_downstream_of` looks at anonymous streams only,
see `C13_named_streams_violated`. -/
theorem C13_downstream_partial (w : Net) (h1 : OneOutput w) (h2 : NoNamed w) (a b : Nat)
    (hab : a ≠ b) :
    ∃ n ans, (∀ fuel, n ≤ fuel → isDownstreamOf w fuel a b = some ans) ∧
      (ans = true ↔ Path (allTargets w) a b) := by
  obtain ⟨f, ans, hf⟩ := search_terminates w b _ [a] [] (Nat.le_refl _)
  refine ⟨f, ans, ?_, ?_⟩
  · intro fuel hfuel
    simp only [isDownstreamOf, hab, if_false]
    exact search_mono w b f _ _ _ hf fuel hfuel
  · have hE : Path (next w) a b ↔ Path (allTargets w) a b :=
      ⟨path_congr (fun x y h => (mem_next w h1 h2 x y).mp h),
       path_congr (fun x y h => (mem_next w h1 h2 x y).mpr h)⟩
    rw [← hE]
    cases ans with
    | true =>
      obtain ⟨x, hx, h⟩ := search_sound w b f _ _ hf
      have hx : x = a := by simpa using hx
      subst hx
      rcases h with h | h
      · exact absurd h hab
      · simp [h]
    | false =>
      have := search_complete w b f [a] [] hf (by simp) a (by simp)
      simp [this.2]

/-- **C13**, the half that holds for every workflow: the query always terminates, and
`true` is answered only if a path exists. -/
theorem C13_downstream_sound (w : Net) (a b : Nat) :
    ∃ n ans, (∀ fuel, n ≤ fuel → isDownstreamOf w fuel a b = some ans) ∧
      (ans = true → a ≠ b ∧ Path (allTargets w) a b) := by
  by_cases hab : a = b
  · exact ⟨0, false, fun fuel _ => by simp [isDownstreamOf, hab], by simp⟩
  · obtain ⟨f, ans, hf⟩ := search_terminates w b _ [a] [] (Nat.le_refl _)
    refine ⟨f, ans, ?_, ?_⟩
    · intro fuel hfuel
      simp only [isDownstreamOf, hab, if_false]
      exact search_mono w b f _ _ _ hf fuel hfuel
    · rintro rfl
      obtain ⟨x, hx, h⟩ := search_sound w b f _ _ hf
      have hx : x = a := by simpa using hx
      subst hx
      rcases h with h | h
      · exact absurd h hab
      · exact ⟨hab, path_congr (mem_next_all w) h⟩

/-- A cyclic workflow: 1 → {2, 3}, 2 → 1, 3 streams into 4. The hypotheses hold, the
answers are those of the theorem. -/
def cyclicNet : Net :=
  [(1, ⟨none, some [2, 3], [], []⟩), (2, ⟨some 1, none, [], []⟩), (3, ⟨none, none, [4], []⟩)]

theorem lookup_cyclicNet {P : Links → Prop} (h : ∀ p ∈ cyclicNet, P p.2) :
    ∀ e l, cyclicNet.lookup e = some l → P l :=
  fun _ _ hl => h _ (lookup_mem_pair hl)

example : OneOutput cyclicNet ∧ NoNamed cyclicNet ∧
    isDownstreamOf cyclicNet 20 2 4 = some true ∧
    isDownstreamOf cyclicNet 20 4 2 = some false ∧
    isDownstreamOf cyclicNet 20 2 1 = some true :=
  ⟨lookup_cyclicNet (P := fun l => l.single = none ∨ l.fork = none) (by decide),
   lookup_cyclicNet (P := fun l => l.named = []) (by decide), by decide, by decide, by decide⟩

/-- **C13** is false in full: operation 1 feeds operation 2 through a named stream, and
2 feeds 3, yet 3 is not found downstream of 1. -/
theorem C13_named_streams_violated : ¬ C13_full := by
  intro h
  let w : Net := [(1, ⟨none, none, [], [2]⟩), (2, ⟨some 3, none, [], []⟩)]
  have hall : OneOutput w := by
    intro e l hl
    have : ∀ p ∈ w, p.2.single = none ∨ p.2.fork = none := by decide
    exact this _ (lookup_mem_pair hl)
  obtain ⟨n, ans, hn, hans⟩ := h w hall 1 3 (by decide)
  have hp : Path (allTargets w) 1 3 := .cons (b := 2) (by decide) (.one (by decide))
  have h1 := hn (n + 2) (by omega)
  have h2 : isDownstreamOf w (n + 2) 1 3 = some false := by
    have h3 : isDownstreamOf w 2 1 3 = some false := by decide
    simp only [isDownstreamOf] at h3 ⊢
    rw [if_neg (by decide)] at h3 ⊢
    exact search_mono w 3 2 _ _ _ h3 _ (by omega)
  rw [h1] at h2
  cases h2
  exact absurd (hans.mpr hp) (by simp)

/-! ### C14 -/

/-- The full statement of C14: in a workflow whose operations all exist, the check
answers whether the operation may still be triggered. -/
def C14_full : Prop :=
  ∀ (w : World) (s n : Nat), Sane w → w.lookup n ≠ none →
    ∃ b, checkReachability w s n = .ok b ∧ (b = true ↔ Live w s n)

/-- **C14**: the check terminates on every workflow, cyclic or not: no chain of nested
checks is longer than the number of operations. -/
theorem C14_terminates (w : World) (s n : Nat) : checkReachability w s n ≠ .unfinished := by
  refine check_finishes w s _ [] n ?_
  have : unseen w (keys []) ≤ w.length := by
    unfold unseen
    exact Nat.le_trans (List.length_filter_le _ _) (by simp)
  omega

/-- **C14**: in a workflow whose operations all exist the check gives an answer. -/
theorem C14_answers (w : World) (s n : Nat) (hs : Sane w) (hn : w.lookup n ≠ none) :
    ∃ b, checkReachability w s n = .ok b := by
  have h1 := C14_terminates w s n
  have h2 : checkReachability w s n ≠ .broken := check_not_broken hs s _ [] n hn
  cases h : checkReachability w s n with
  | ok b => exact ⟨b, rfl⟩
  | broken => exact absurd h h2
  | unfinished => exact absurd h h1

/-- **C14**: the answer `true` is always right, on every workflow. -/
theorem C14_sound (w : World) (s n : Nat) (h : checkReachability w s n = .ok true) :
    Live w s n :=
  (check_sound w s _ [] n (fun m hm => by simp at hm)).1 h

/-- **C14**, both directions, for workflows in which no cycle lies upstream of a join of
several buffers or of a buffer whose closed gate may be opened. Cycles everywhere else
are allowed. Missing: such cycles upstream of a join; there the check can answer
`false` although the join may still be triggered, see `C14_join_cycle_violated`. -/
theorem C14_reachability_partial (w : World) (s n : Nat) (hs : Sane w)
    (hn : w.lookup n ≠ none)
    (hc : ∀ m op, w.lookup m = some op → Single s op ∨ NoCycleUp w m) :
    ∃ b, checkReachability w s n = .ok b ∧ (b = true ↔ Live w s n) := by
  obtain ⟨b, hb⟩ := C14_answers w s n hs hn
  refine ⟨b, hb, ?_⟩
  cases b with
  | true => simp [C14_sound w s n hb]
  | false =>
    have := check_complete hs s hc _ n hb
    simp [this]

/-- **C14** as paths: in a workflow of plain operations and open buffers, with any
cycles, the check answers `true` exactly if the operation itself or some operation with
a path to it holds activity of the session. -/
theorem C14_activity_upstream (w : World) (s n : Nat) (hs : Sane w)
    (hn : w.lookup n ≠ none) (hp : ∀ m op, w.lookup m = some op → Plain s op) :
    ∃ b, checkReachability w s n = .ok b ∧
      (b = true ↔ ∃ m, (m = n ∨ Path (sources w) n m) ∧ holds w s m) := by
  obtain ⟨b, hb, hiff⟩ := C14_reachability_partial w s n hs hn (fun m op hm => Or.inl (by
    have := hp m op hm
    cases op with
    | plain => trivial
    | join => exact absurd this (by simp [Plain])
    | buffer => exact Or.inl this.1
    | broken => trivial))
  refine ⟨b, hb, hiff.trans ?_⟩
  constructor
  · exact live_holds hp
  · rintro ⟨m, hm, h⟩
    have hL := holds_live hp h
    rcases hm with rfl | hm
    · exact hL
    · exact path_live hp hm hL

/-- A workflow with a loop: 1 ⇄ 2, both fed by the active operation 3 in session 7;
buffer 4 is fed by 1 and read through the accessor 5; 6 is fed by the buffer. -/
def loopWorld : World :=
  [(1, .plain (fun _ => false) [2, 3]), (2, .plain (fun _ => false) [1]),
   (3, .plain (fun s => s == 7) []),
   (4, .buffer (fun _ => true) [] [(5, fun _ => false)] (fun _ => false) [1]),
   (5, .plain (fun _ => false) []), (6, .plain (fun _ => false) [4])]

theorem loopWorld_sane : Sane loopWorld := by
  have h : ∀ p ∈ loopWorld, p.2 ≠ Op.broken ∧ ∀ m ∈ p.2.sources, loopWorld.lookup m ≠ none := by
    simp [loopWorld, Op.sources, List.lookup]
  exact fun n op hl => h _ (lookup_mem_pair hl)

theorem loopWorld_plain (s : Nat) : ∀ m op, loopWorld.lookup m = some op → Plain s op := by
  have h : ∀ p ∈ loopWorld, Plain s p.2 := by simp [loopWorld, Plain]
  exact fun n op hl => h _ (lookup_mem_pair hl)

/-- The hypotheses of `C14_activity_upstream` and `C14_reachability_partial` hold, with
both answers possible. -/
example : Sane loopWorld ∧ (∀ m op, loopWorld.lookup m = some op → Plain 7 op) ∧
    checkReachability loopWorld 7 6 = .ok true ∧
    checkReachability loopWorld 8 6 = .ok false ∧
    checkReachability loopWorld 7 5 = .ok false :=
  ⟨loopWorld_sane, loopWorld_plain 7, by decide, by decide, by decide⟩

/-- A join without cycles upstream: buffer 1 holds a value, buffer 2 is fed by 3, active
in session 7. -/
def joinWorld : World :=
  [(0, .join [(1, fun _ => 1), (2, fun _ => 0)]),
   (1, .buffer (fun _ => true) [] [] (fun _ => false) []),
   (2, .buffer (fun _ => false) [(3, true)] [] (fun _ => false) [3]),
   (3, .plain (fun s => s == 7) [])]

theorem joinWorld_acyclic (n : Nat) : NoCycleUp joinWorld n := by
  have none_up : ∀ n, sources joinWorld n = [] → NoCycleUp joinWorld n := fun n h =>
    ⟨_, fun m hm => by rw [h] at hm; simp at hm⟩
  have h3 := none_up 3 rfl
  have h1 := none_up 1 rfl
  have h2 : NoCycleUp joinWorld 2 := ⟨_, fun m hm => by
    have : m = 3 := by simpa [sources, joinWorld, Op.sources, List.lookup] using hm
    subst this; exact h3⟩
  have h0 : NoCycleUp joinWorld 0 := ⟨_, fun m hm => by
    have : m = 1 ∨ m = 2 := by simpa [sources, joinWorld, Op.sources, List.lookup] using hm
    rcases this with rfl | rfl
    · exact h1
    · exact h2⟩
  match n with
  | 0 => exact h0
  | 1 => exact h1
  | 2 => exact h2
  | 3 => exact h3
  | n + 4 => exact none_up _ rfl

/-- The hypotheses of `C14_reachability_partial` hold for a workflow with a join and a
closed gate. -/
example : (∀ m op, joinWorld.lookup m = some op → Single 7 op ∨ NoCycleUp joinWorld m) ∧
    checkReachability joinWorld 7 0 = .ok true ∧
    checkReachability joinWorld 8 0 = .ok false :=
  ⟨fun m _ _ => Or.inr (joinWorld_acyclic m), by decide, by decide⟩

/-- A join of two buffers 1 and 2 fed by the operations 3 and 4 of a loop; 3 is also fed
by the active operation 5, listed after the loop. -/
def joinCycle : World :=
  [(0, .join [(1, fun _ => 0), (2, fun _ => 0)]),
   (1, .buffer (fun _ => true) [] [] (fun _ => false) [3]),
   (2, .buffer (fun _ => true) [] [] (fun _ => false) [4]),
   (3, .plain (fun _ => false) [4, 5]), (4, .plain (fun _ => false) [3]),
   (5, .plain (fun _ => true) [])]

theorem joinCycle_live (s : Nat) : Live joinCycle s 0 := by
  have h5 : Live joinCycle s 5 := .active (a := fun _ => true) (is := []) rfl rfl
  have h3 : Live joinCycle s 3 :=
    .input (a := fun _ => false) (is := [4, 5]) (i := 5) rfl (by simp) h5
  have h4 : Live joinCycle s 4 :=
    .input (a := fun _ => false) (is := [3]) (i := 3) rfl (by simp) h3
  refine .join (is := [(1, fun _ => 0), (2, fun _ => 0)]) rfl ?_
  intro p hp _
  have hp : p = (1, fun _ => 0) ∨ p = (2, fun _ => 0) := by simpa using hp
  rcases hp with rfl | rfl
  · exact .openInput (o := fun _ => true) (gs := []) (as := []) (a := fun _ => false)
      (is := [3]) (i := 3) rfl rfl (by simp) h3
  · exact .openInput (o := fun _ => true) (gs := []) (as := []) (a := fun _ => false)
      (is := [4]) (i := 4) rfl rfl (by simp) h4

/-- **C14** is false in full: operation 4 is found unreachable while 3 is still being
examined, that answer is kept, and the join is reported unreachable although both of its
buffers will receive a value. -/
theorem C14_join_cycle_violated : ¬ C14_full := by
  intro h
  have hs : Sane joinCycle := by
    have h : ∀ p ∈ joinCycle, p.2 ≠ Op.broken ∧ ∀ m ∈ p.2.sources, joinCycle.lookup m ≠ none := by
      simp [joinCycle, Op.sources, List.lookup]
    exact fun n op hl => h _ (lookup_mem_pair hl)
  obtain ⟨b, hb, hiff⟩ := h joinCycle 0 0 hs (by simp [joinCycle, List.lookup])
  have h2 : checkReachability joinCycle 0 0 = .ok false := by decide
  rw [h2] at hb
  cases hb
  exact absurd (hiff.mpr (joinCycle_live 0)) (by simp)

/-- The answer of the same check depends on the order in which the two inputs of
operation 3 were connected. -/
theorem C14_order_dependent :
    let w' : World := joinCycle.map fun p =>
      if p.1 = 3 then (3, .plain (fun _ => false) [5, 4]) else p
    checkReachability w' 0 0 = .ok true ∧ checkReachability joinCycle 0 0 = .ok false := by
  decide

/-- Beside the search itself: asking about an operation downstream of a gate whose
action is decided at run time fails instead of answering, since the gate's own check
looks for the wrong type of input (src/operation/operate_gate.rs:118-120). -/
theorem C14_dynamic_gate_violated :
    ∃ (w : World) (s n : Nat), (∀ m op, w.lookup m = some op →
        ∀ k ∈ op.sources, w.lookup k ≠ none) ∧ holds w s 2 ∧ Path (sources w) n 2 ∧
      checkReachability w s n = .broken := by
  refine ⟨[(0, .plain (fun _ => false) [1, 2]), (1, .broken), (2, .plain (fun _ => true) [])],
    0, 0, ?_, rfl, .one (by decide), by decide⟩
  intro m op hl
  have h : ∀ p ∈ ([(0, .plain (fun _ => false) [1, 2]), (1, .broken),
      (2, .plain (fun _ => true) [])] : World), ∀ k ∈ p.2.sources,
      ([(0, .plain (fun _ => false) [1, 2]), (1, .broken),
        (2, .plain (fun _ => true) [])] : World).lookup k ≠ none := by
    simp [Op.sources, List.lookup]
  exact h _ (lookup_mem_pair hl)

end Verif.Graph
