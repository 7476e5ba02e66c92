import Verif.Series.Pile

/-
C42. Cancelling any step of a series resolves the promise at the end of the chain as cancelled
and removes the whole chain, once.

C43. When the streams of a series are pushed into a collection component, the collection
receives every item that the stream produced, in order.

C65. A step of a series that breaks resolves the promise at the end of the chain as cancelled.

C66. A receiver that was taken from a series gets every item emitted into its stream, in order,
and has got all of them by the time the response arrives.

C67. A series that has delivered its response leaves no entities behind.
-/
namespace Verif.Series

/-! ### C42 -/

/-- Cancelling a step removes exactly the series it belongs to, and the promise at its end, if
there is one, is told that it is cancelled; no other promise is told anything. -/
theorem C42_cancel (ops : List Op) (x t : Nat) (n m : Node)
    (hx : (run ops).nodes x = some n) (hn : n.kind ≠ .idle) (hl : Leads (run ops) x t)
    (ht : (run ops).nodes t = some m) :
    let w := run ops
    let w' := run (ops ++ [.cancel x])
    (∀ y, Inside w t y → w'.nodes y = none) ∧
    (∀ y, ¬ Inside w t y → w'.nodes y = w.nodes y) ∧
    w'.outcomes = w.outcomes ++ (if m.kind = .taken then [(t, .cancelled)] else []) ∧
    w'.errors = w.errors := by
  have hI := inv_run ops
  have hf := hI.net.forest
  have hc := (hf.ok _ _ hx).cancellable hn
  have e : run (ops ++ [.cancel x]) = (run ops).cancel x := by
    simp [run, List.foldl_append, World.step]
  have herr : ((run ops).cancel x).errors = (run ops).errors := by
    simp only [World.cancel, hx, hc, if_true, World.cancelExecution]
    cases (run ops).nodes ((run ops).walk (run ops).next x) with
    | none => rfl
    | some q => dsimp only; split <;> rfl
  simp only [e]
  cases cancel_cases hf x with
  | none hn' _ _ _ _ hno => rw [hno n hx] at hc; cases hc
  | some t' n' m' hx' hc' hl' ht' hn' hq hnx ho hr =>
    have : t' = t := by rw [← walk_eq hf hl, ← walk_eq hf hl']
    subst this
    rw [ht] at ht'; cases ht'
    refine ⟨?_, ?_, ho, herr⟩
    · intro y hi
      rw [hn']; exact despawn_in hf hi
    · intro y hi
      rw [hn']; exact despawn_out hf hi

/-- Every entity leads to some terminal and belongs to the series that ends there, so does all
that comes before it in the chain. -/
theorem C42_chain (ops : List Op) (x : Nat) (n : Node) (hx : (run ops).nodes x = some n) :
    ∃ t, Leads (run ops) x t ∧ Inside (run ops) t x ∧
      ∀ y, Leads (run ops) y t → Inside (run ops) t y := by
  have hf := (inv_run ops).net.forest
  obtain ⟨t, ht⟩ := leads_exists hf hx
  exact ⟨t, ht, ht.inside hf, fun y hy => hy.inside hf⟩

/-- No promise is ever told two things. -/
theorem C42_once (ops : List Op) : ((run ops).outcomes.map (·.1)).Nodup := (told_run ops).nodup

/-- Cancelling the series again, through any entity of it, only reports an error. -/
theorem C42_again (ops : List Op) (x y t : Nat) (n : Node)
    (hx : (run ops).nodes x = some n) (hn : n.kind ≠ .idle) (hl : Leads (run ops) x t)
    (hy : Inside (run ops) t y) :
    let w := run (ops ++ [.cancel x])
    w.step (.cancel y) = { w with errors := w.errors + 1 } := by
  obtain ⟨m, ht, -⟩ := hl.end
  have := (C42_cancel ops x t n m hx hn hl ht).1 y hy
  simp only [World.step, World.cancel, this]

/-- A chain of three steps, the second one at work. -/
def chain3 : List Op :=
  [.request 5, .next' 0, .next' 2, .take 2 3 [], .exec, .respond 1 6, .exec]

example : ((run chain3).nodes 0).map (·.kind) = some (.busy 1) ∧
    ((run chain3).nodes 3).map (·.kind) = some .taken := by decide

example : let w := run (chain3 ++ [.cancel 1])
    w.outcomes = [(3, .cancelled)] ∧ (w.nodes 0).isNone ∧ (w.nodes 1).isNone ∧
      (w.nodes 2).isNone ∧ (w.nodes 3).isNone := by decide

/-! ### C43 -/

/-- Whatever was pushed, the entity that pushes a stream is gone after its first item and never
comes back: only the item that comes first reaches the collection. -/
theorem C43_first_partial (ops later : List Op) (c e s v : Nat) (n : Node) (rest : List Nat)
    (more : List (Nat × Nat)) (hq : (run ops).queue = c :: rest)
    (hc : (run ops).nodes c = some n) (hk : n.kind = .push e true)
    (hi : n.inputs = (s, v) :: more) :
    (run (ops ++ [.exec])).collected = (run ops).collected ++ [(e, s, v)] ∧
    (run (ops ++ .exec :: later)).nodes c = none := by
  have hI := inv_run ops
  have e1 : (run (ops ++ [.exec])).collected = (run ops).exec.collected := by
    simp [run, List.foldl_append, World.step]
  have e2 : run (ops ++ .exec :: later) = later.foldl World.step (run ops).exec := by
    simp [run, List.foldl_append, World.step]
  rw [e1, e2]
  refine ⟨by simp [World.exec, hq, hc, hi, hk, World.despawn, World.set], ?_⟩
  have hd : (run ops).exec.nodes c = none := by
    rcases exec_cases (run ops) with ⟨h0, -⟩ | ⟨x, r, h0, hcase⟩
    · rw [hq] at h0; cases h0
    · rw [hq] at h0; cases h0
      have hgone : (run ops).exec.nodes = ((run ops).despawn c).nodes →
          (run ops).exec.nodes c = none := by
        intro hn
        rw [hn]; exact despawn_in hI.net.forest .self
      cases hcase with
      | skip _ h =>
        have := (h n hc (by rw [hi]; simp)).1
        rw [hk] at this; cases this
      | start m _ _ _ hx _ hk' => rw [hc] at hx; cases hx; rw [hk] at hk'; cases hk'
      | item m _ _ _ hx _ hk' => rw [hc] at hx; cases hx; rw [hk] at hk'; cases hk'
      | keep m _ _ _ _ hx _ hk' => rw [hc] at hx; cases hx; rw [hk] at hk'; cases hk'
      | sent m _ _ _ _ _ _ hn => exact hgone hn
      | gone m _ _ _ _ _ _ hn => exact hgone hn
  have hnx := (no_revive hI .exec).1
  exact dead_fold hI.exec later (by have := hI.net.forest.lt hc; exact Nat.lt_of_lt_of_le this hnx) hd

/-- The code violates C43: however many items a stream produces, the collection gets the first
one only, as soon as anything is executed. -/
theorem C43_violated (r ty e v : Nat) (vs : List Nat) (k : Nat) :
    (run (collecting r ty e ++ ((v :: vs).map fun u => Op.emit 1 ty u) ++
      List.replicate (k + 1) Op.exec)).collected = [(e, 1, v)] := by
  have hp := piled_emits (v :: vs) (piled_start r ty e)
  have hrun : run (collecting r ty e ++ ((v :: vs).map fun u => Op.emit 1 ty u) ++
      List.replicate (k + 1) Op.exec) = (List.replicate k Op.exec).foldl World.step
        (run (collecting r ty e ++ (v :: vs).map fun u => Op.emit 1 ty u)).exec := by
    rw [List.replicate_succ]
    simp only [run, List.foldl_append, List.foldl_cons, World.step]
  have hw : ((v :: vs).map fun u => Op.emit 1 ty u).foldl World.step (run (collecting r ty e)) =
      run (collecting r ty e ++ (v :: vs).map fun u => Op.emit 1 ty u) := by
    simp only [run, List.foldl_append]
  rw [hw] at hp
  obtain ⟨-, ⟨m, hm, hmk, hmi⟩, hq, hc⟩ := hp
  simp only [List.nil_append, List.length_cons, List.replicate_succ] at hq
  simp only [List.nil_append, List.map_cons] at hmi
  obtain ⟨h1, h2⟩ := C43_first_partial _ [] 2 e 1 v m _ _ hq hm hmk hmi
  have e1 : ∀ ops, run (ops ++ [.exec]) = (run ops).exec := by
    intro ops; simp [run, List.foldl_append, World.step]
  rw [e1] at h1 h2
  rw [hc] at h1
  rw [hrun, dead_execs k (j := vs.length) h2, h1]
  · rfl
  · generalize run (collecting r ty e ++ (v :: vs).map fun u => Op.emit 1 ty u) = w at hq hm
    simp [World.exec, hq, hm, hmk, hmi, World.despawn, World.set]

/-- Three items are produced, one is collected; the others are nowhere. -/
example : (run (collecting 9 4 50 ++ [.emit 1 4 7, .emit 1 4 8, .emit 1 4 9, .exec, .exec,
    .exec])).collected = [(50, 1, 7)] := by decide

/-- The code violates C43 in another way: storing, pushing or taking the response after
`collect_streams` replaces the stream map by an empty one, so that everything emitted is
dropped. -/
theorem C43_collect_violated (ops : List Op) (s t e f : Nat) (tys : List Nat)
    (op : Op) (hop : op = .store s t f [] ∨ op = .push s t f [] ∨ op = .take s t [])
    (h : (run ops).handle s t = true) :
    let w := run (ops ++ [.collect s t e tys, op])
    ∀ ty v, w.step (.emit s ty v) = w := by
  have hI := inv_run ops
  have hf := hI.net.forest
  obtain ⟨a, b, hs, ht, hat, hbk⟩ := handle_iff.1 h
  have hst : s ≠ t := by
    intro e
    subst e
    rw [hs] at ht; cases ht
    rw [((hf.ok _ _ hs).idle hbk).2] at hat; cases hat
  have hw1 : (run ops).collect s t e tys = (run ops).streams s s (.push e true) tys := by
    simp [World.collect, h]
  obtain ⟨map, hnx, -, -, -, -, hnodes, -⟩ := streams_nodes hf hs s (.push e true) tys
  have hI1 : Inv ((run ops).collect s t e tys) := hI.collect s t e tys
  have hs1 : ((run ops).collect s t e tys).nodes s = some { a with streams := map } := by
    rw [hw1, hnodes, if_pos rfl]
  have ht1 : ((run ops).collect s t e tys).nodes t = some b := by
    have := hf.lt ht
    rw [hw1, hnodes, if_neg (fun e => hst e.symm), if_neg (by omega)]; exact ht
  have hh1 : ((run ops).collect s t e tys).handle s t = true :=
    handle_iff.2 ⟨_, b, hs1, ht1, hat, hbk⟩
  have key : ∀ (kt k : Kind) (p : Nat), kt.terminal = true →
      ∃ q, ((((run ops).collect s t e tys).finishWith t kt).streams s p k []).nodes s = some q ∧
        q.streams = [] := by
    intro kt k p hkt
    have hfin := hI1.finishWith ht1 hbk hkt
    have hs2 : (((run ops).collect s t e tys).finishWith t kt).nodes s =
        some { a with streams := map } := by
      rw [finishWith_eq ht1 hbk, set_other _ _ hst]; exact hs1
    obtain ⟨map2, -, -, -, -, -, hn2, hm2⟩ := streams_nodes hfin.net.forest hs2 p k []
    exact ⟨_, by rw [hn2, if_pos rfl], hm2 rfl⟩
  have hw : ∃ q, (run (ops ++ [.collect s t e tys, op])).nodes s = some q ∧ q.streams = [] := by
    have e0 : run (ops ++ [.collect s t e tys, op]) =
        ((run ops).collect s t e tys).step op := by
      simp [run, List.foldl_append, World.step]
    rw [e0]
    rcases hop with rfl | rfl | rfl
    · simp only [World.step, World.store, hh1, if_true]
      exact key _ _ _ rfl
    · simp only [World.step, World.push, hh1, if_true]
      exact key _ _ _ rfl
    · simp only [World.step, World.take, hh1, if_true]
      exact key _ _ _ rfl
  obtain ⟨q, hq, hqs⟩ := hw
  intro w ty v
  show w.emit s ty v = w
  have hq' : w.nodes s = some q := hq
  unfold World.emit
  simp only [hq']
  cases q.kind with
  | busy _ => simp [hqs]
  | _ => rfl

example : (run [.request 3]).handle 1 0 = true := by decide

/-! ### C65 -/

/-- One step that took its request and then broke. -/
def broke : List Op := [.request 5, .takeResponse 1 0, .exec, .breaks 1]

/-- The code violates C65: whatever happens after the step broke, short of cancelling the
series, its promise is not told anything and its entities stay. -/
theorem C65_violated (later : List Op)
    (h : ∀ op ∈ later, op ≠ .cancel 0 ∧ op ≠ .cancel 1) :
    let w := run (broke ++ later)
    (∀ o, (0, o) ∉ w.outcomes) ∧ (w.nodes 0).isSome ∧ (w.nodes 1).isSome := by
  have h0 : Stuck (run broke) := by
    refine ⟨inv_run broke, ?_, ?_, ?_, ?_⟩
    · exact ⟨{ kind := .taken, cancellable := true }, rfl, rfl, rfl, rfl, rfl⟩
    · exact ⟨{ parent := some 0, target := some 0, kind := .done, cancellable := true },
        rfl, rfl, rfl, rfl, rfl⟩
    · intro y n hy ht
      obtain ⟨m, hm, hml⟩ := target_nonleaf (inv_run broke).net hy ht
      have h2 : y < 2 := (inv_run broke).net.forest.lt hy
      have : y = 0 ∨ y = 1 := by omega
      rcases this with rfl | rfl
      · have hy' : some ({ kind := .taken, cancellable := true } : Node) = some n := hy
        cases hy'
        cases ht
      · have hy' : some (Node.mk (some 0) (some 0) .done [] [] true) = some n := hy
        cases hy'
        cases ht
    · intro o hm
      have hm' : (0, o) ∈ ([] : List (Nat × Outcome)) := hm
      cases hm'
  have hs := stuck_fold h0 later h
  have e : run (broke ++ later) = later.foldl World.step (run broke) := by
    simp [run, List.foldl_append]
  intro w
  have hw : w = later.foldl World.step (run broke) := e
  rw [hw]
  obtain ⟨n, hn, -⟩ := hs.last
  obtain ⟨m, hm, -⟩ := hs.step
  exact ⟨hs.told, by rw [hn]; rfl, by rw [hm]; rfl⟩

example : (run broke).errors = 1 ∧ (run (broke ++ [.exec, .respond 1 3, .exec])).outcomes = [] := by
  decide

/-- What holds of a step that breaks: an error is reported, nothing of any other step changes,
and the series can still be cancelled, which ends it as C65 says. -/
theorem C65_reported_partial (ops : List Op) (x t s : Nat) (n m : Node)
    (hx : (run ops).nodes x = some n) (hb : n.kind = .busy s) (hl : Leads (run ops) x t)
    (ht : (run ops).nodes t = some m) :
    let w := run ops
    let w1 := run (ops ++ [.breaks x])
    let w2 := run (ops ++ [.breaks x, .cancel x])
    w1.errors = w.errors + 1 ∧ w1.outcomes = w.outcomes ∧
    (∀ y, y ≠ x → w1.nodes y = w.nodes y) ∧
    (∀ y, Inside w t y → w2.nodes y = none) ∧
    (∀ y, ¬ Inside w t y → w2.nodes y = w.nodes y) ∧
    w2.outcomes = w.outcomes ++ (if m.kind = .taken then [(t, .cancelled)] else []) := by
  have e1 : run (ops ++ [.breaks x]) = { (run ops).set x { n with kind := .done } with
      errors := (run ops).errors + 1 } := by
    simp only [run, List.foldl_append, List.foldl_cons, List.foldl_nil, World.step, World.breaks]
    show (match (run ops).nodes x with
      | none => run ops
      | some n => _) = _
    rw [hx]
    simp only [hb]
  have hnode : ∀ y, (run (ops ++ [.breaks x])).nodes y =
      if y = x then some { n with kind := .done } else (run ops).nodes y := by
    intro y; rw [e1]; rfl
  -- neither who leads where nor who belongs to whom depends on what a step is doing
  have links : ∀ y q, (run ops).nodes y = some q → ∃ q', (run (ops ++ [.breaks x])).nodes y = some q' ∧
      q'.target = q.target ∧ q'.parent = q.parent := by
    intro y q hy
    by_cases e : y = x
    · subst e
      rw [hx] at hy; cases hy
      exact ⟨{ n with kind := .done }, by rw [hnode, if_pos rfl], rfl, rfl⟩
    · exact ⟨q, by rw [hnode, if_neg e]; exact hy, rfl, rfl⟩
  have back : ∀ y q', (run (ops ++ [.breaks x])).nodes y = some q' → ∃ q, (run ops).nodes y = some q ∧
      q'.parent = q.parent := by
    intro y q' hy
    rw [hnode] at hy
    split at hy
    · next e => subst e; cases hy; exact ⟨n, hx, rfl⟩
    · exact ⟨q', hy, rfl⟩
  have hl' : Leads (run (ops ++ [.breaks x])) x t := by
    clear hx hb ht e1 hnode back
    generalize run (ops ++ [.breaks x]) = w1 at links ⊢
    induction hl with
    | last h h' =>
      obtain ⟨q', h1, h2, -⟩ := links _ _ h
      exact .last h1 (h2.trans h')
    | next h h' _ ih =>
      obtain ⟨q', h1, h2, -⟩ := links _ _ h
      exact .next h1 (h2.trans h') ih
  have hin : ∀ y, Inside (run ops) t y ↔ Inside (run (ops ++ [.breaks x])) t y := by
    intro y
    constructor
    · intro h
      induction h with
      | self => exact .self
      | child h hp _ ih =>
        obtain ⟨q', h1, -, h2⟩ := links _ _ h
        exact .child h1 (h2.trans hp) ih
    · intro h
      induction h with
      | self => exact .self
      | child h hp _ ih =>
        obtain ⟨q, h1, h2⟩ := back _ _ h
        exact .child h1 (h2.symm.trans hp) ih
  obtain ⟨m', ht', hm'⟩ : ∃ m', (run (ops ++ [.breaks x])).nodes t = some m' ∧
      (m'.kind = .taken ↔ m.kind = .taken) := by
    by_cases e : t = x
    · subst e
      rw [hx] at ht; cases ht
      exact ⟨{ n with kind := .done }, by rw [hnode, if_pos rfl], by simp [hb]⟩
    · exact ⟨m, by rw [hnode, if_neg e]; exact ht, Iff.rfl⟩
  have hc := C42_cancel (ops ++ [.breaks x]) x t { n with kind := .done } m'
    (by rw [hnode, if_pos rfl]) (by simp) hl' ht'
  have e2 : ops ++ [.breaks x, .cancel x] = ops ++ [.breaks x] ++ [.cancel x] := by simp
  obtain ⟨h1, h2, h3, -⟩ := hc
  refine ⟨by rw [e1], by rw [e1]; rfl, ?_, ?_, ?_, ?_⟩
  · intro y hy; rw [hnode, if_neg hy]
  · intro y hy; rw [e2]; exact h1 y ((hin y).1 hy)
  · intro y hy
    have hyx : y ≠ x := by
      rintro rfl
      exact hy (hl.inside (inv_run ops).net.forest)
    rw [e2, h2 y (fun h => hy ((hin y).2 h)), hnode, if_neg hyx]
  · rw [e2, h3, e1]
    simp only [hm']
    rfl

example : let w := run (chain3 ++ [.breaks 0, .cancel 0])
    w.outcomes = [(3, .cancelled)] ∧ (w.nodes 2).isNone ∧ w.errors = 1 := by decide

/-! ### C66 -/

/-- What a receiver was sent, and what waits for it, is what was emitted into its stream: none
lost, none added, in order. -/
theorem C66_ledger (ops : List Op) (c : Nat) (n : Node) (hc : (run ops).nodes c = some n)
    (hk : n.kind = .takenStream) :
    got (run ops) c ++ n.inputs.map (·.2) = emitted c {} ops :=
  (ledger_run c ops).alive n hc hk

/-- When the response arrives at the promise, the receivers of the streams of the last step
have got everything. -/
theorem C66_complete (ops : List Op) (x t c ty : Nat) (n m q : Node) (rest : List Nat)
    (hq : (run ops).queue = t :: rest) (ht : (run ops).nodes t = some m)
    (hm : m.kind = .taken) (hi : m.inputs ≠ [])
    (hx : (run ops).nodes x = some n) (hxt : n.target = some t) (hs : (ty, c) ∈ n.streams)
    (hc : (run ops).nodes c = some q) (hk : q.kind = .takenStream) :
    got (run (ops ++ [.exec])) c = emitted c {} (ops ++ [.exec]) := by
  have hI := inv_run ops
  have hf := hI.line.fifo x n t (ty, c) q hx hxt hs hc
  rw [hq, List.takeWhile_cons, if_neg (by simp)] at hf
  have hin : q.inputs = [] := by
    cases hqi : q.inputs with
    | nil => rfl
    | cons a l => rw [hqi] at hf; simp at hf
  have hl := C66_ledger ops c q hc hk
  rw [hin, List.map_nil, List.append_nil] at hl
  have hem : ∀ (w : World) (l : List Op), emitted c w (l ++ [.exec]) = emitted c w l := by
    intro w l
    induction l generalizing w with
    | nil => simp [emitted]
    | cons op l ih => rw [List.cons_append, emitted_cons, emitted_cons, ih]
  rw [hem, ← hl]
  have e1 : run (ops ++ [.exec]) = (run ops).exec := by
    simp [run, List.foldl_append, World.step]
  rw [e1]
  cases hmi : m.inputs with
  | nil => exact absurd hmi hi
  | cons a l =>
    obtain ⟨s, v⟩ := a
    simp [got, World.exec, hq, ht, hmi, hm, World.despawn]

/-- A receiver lives as long as the terminal of its series, unless it is itself cancelled. -/
theorem C66_alive (ops later : List Op) (c p : Nat) (n : Node)
    (hc : (run ops).nodes c = some n) (hk : n.kind = .takenStream) (hp : n.parent = some p)
    (hl : Op.cancel c ∉ later) :
    (∃ n', (run (ops ++ later)).nodes c = some n' ∧ n'.kind = .takenStream) ∨
    (run (ops ++ later)).nodes p = none := by
  have e : run (ops ++ later) = later.foldl World.step (run ops) := by
    simp [run, List.foldl_append]
  rw [e]
  have hI := inv_run ops
  generalize run ops = w at hI hc
  clear e
  induction later generalizing w n with
  | nil => exact .inl ⟨n, hc, hk⟩
  | cons op later ih =>
    rw [List.mem_cons, not_or] at hl
    rcases receiver_step hI hc hk hp op (fun e => hl.1 e.symm) with ⟨n', h1, h2, h3⟩ | hd
    · exact ih n' h2 h3 hl.2 (w.step op) (hI.step op) h1
    · right
      have hlt : p < w.next := by
        obtain ⟨m, hm, -⟩ := hI.net.forest.alive _ _ _ hc hp
        exact hI.net.forest.lt hm
      exact dead_fold (hI.step op) later (by have := (no_revive hI op).1; omega) hd

/-- One step with one stream that is taken, three items, then the response. -/
def taking : List Op :=
  [.request 5, .take 1 0 [4], .exec, .emit 1 4 7, .emit 1 4 8, .respond 1 6, .exec, .exec]

example : (run taking).queue = [0] ∧ ((run taking).nodes 0).map (·.kind) = some .taken ∧
    ((run taking).nodes 2).map (·.kind) = some .takenStream ∧
    ((run taking).nodes 1).map (·.streams) = some [(4, 2)] := by decide

example : got (run (taking ++ [.exec])) 2 = [7, 8] ∧
    (run (taking ++ [.exec])).outcomes = [(0, .sent 6)] := by decide

/-! ### C67 -/

/-- Delivering the response to a promise, a storage or an event removes the whole series, and
nothing else. -/
theorem C67_partial (ops : List Op) (t : Nat) (n : Node) (rest : List Nat)
    (hq : (run ops).queue = t :: rest) (ht : (run ops).nodes t = some n)
    (hk : n.kind = .taken ∨ n.kind = .event ∨ ∃ e, n.kind = .store e) (hi : n.inputs ≠ []) :
    let w := run ops
    let w' := run (ops ++ [.exec])
    (∀ y, Inside w t y → w'.nodes y = none) ∧
    ∀ y, ¬ Inside w t y → w'.nodes y = w.nodes y := by
  have hI := inv_run ops
  have hf := hI.net.forest
  have e1 : run (ops ++ [.exec]) = (run ops).exec := by
    simp [run, List.foldl_append, World.step]
  simp only [e1]
  have hn : (run ops).exec.nodes = ((run ops).despawn t).nodes := by
    rcases exec_cases (run ops) with ⟨h0, -⟩ | ⟨x, r, h0, hcase⟩
    · rw [hq] at h0; cases h0
    · rw [hq] at h0; cases h0
      have hne : n.kind ≠ .step ∧ n.kind ≠ .takenStream ∧ ∀ e b, n.kind ≠ .push e b := by
        rcases hk with hk | hk | ⟨e, hk⟩ <;> simp [hk]
      cases hcase with
      | skip he h =>
        exfalso
        cases hin : n.inputs with
        | nil => exact hi hin
        | cons a l =>
          obtain ⟨s, v⟩ := a
          have hd : (run ops).exec.nodes t = none := by
            rcases hk with hk | hk | ⟨e, hk⟩ <;>
              simp [World.exec, hq, ht, hin, hk, World.despawn] <;>
              cases (run ops).next <;> simp [World.under]
          rw [he] at hd
          rw [show (run ops).nodes t = none from hd] at ht
          cases ht
      | start m _ _ _ hx _ hk' => rw [ht] at hx; cases hx; exact absurd hk' hne.1
      | item m _ _ _ hx _ hk' => rw [ht] at hx; cases hx; exact absurd hk' hne.2.1
      | keep m _ _ _ _ hx _ hk' => rw [ht] at hx; cases hx; exact absurd hk' (hne.2.2 _ _)
      | sent m _ _ _ _ _ _ hn => exact hn
      | gone m _ _ _ _ _ _ hn => exact hn
  rw [hn]
  exact ⟨fun y h => despawn_in hf h, fun y h => despawn_out hf h⟩

/-- The code violates C67: pushing the response into a collection removes nothing. -/
theorem C67_violated (ops : List Op) (t e s v : Nat) (n : Node) (rest : List Nat)
    (more : List (Nat × Nat)) (hq : (run ops).queue = t :: rest)
    (ht : (run ops).nodes t = some n) (hk : n.kind = .push e false)
    (hi : n.inputs = (s, v) :: more) :
    let w' := run (ops ++ [.exec])
    w'.collected = (run ops).collected ++ [(e, s, v)] ∧
    ∀ y, ((run ops).nodes y).isSome → (w'.nodes y).isSome := by
  have e1 : run (ops ++ [.exec]) = (run ops).exec := by
    simp [run, List.foldl_append, World.step]
  simp only [e1]
  refine ⟨by simp [World.exec, hq, ht, hi, hk, World.set], ?_⟩
  intro y hy
  simp only [World.exec, hq, ht, hi, hk]
  show ((World.set _ t _).nodes y).isSome
  by_cases e : y = t
  · rw [e, set_self]; rfl
  · rw [set_other _ _ e]; exact hy

/-- One step whose response is pushed into entity 50, the response being delivered. -/
def pushing : List Op := [.request 5, .push 1 0 50 [], .exec, .respond 1 6]

example : let w := run (pushing ++ [.exec])
    w.collected = [(50, 1, 6)] ∧ w.queue = [] ∧ (w.nodes 0).isSome ∧ (w.nodes 1).isSome := by
  decide

end Verif.Series
