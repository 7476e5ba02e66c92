import Verif.Values.Flat

/-
Everything that is under way in a session is computed by the graph.
-/
namespace Verif.Values

open Flow (Wired)
open Buffer (Retention)

variable {α : Type}

/-! ### Giving messages -/

/-- `s'` is `s` after the messages `ps` were given. -/
structure Passed (w : Work α) (s s' : State α) (ps : List (Nat × α)) : Prop where
  log : ∀ p, p ∈ s'.log ↔ p ∈ ps ∨ p ∈ s.log
  pending : ∀ n, ∃ l, s'.pending n = s.pending n ++ l ∧ ∀ v, v ∈ l → (n, v) ∈ ps
  fresh : ∀ p, p ∈ ps → ∀ k, w.ops.lookup p.1 = some k → k.shape ≠ .unused → p.2 ∈ s'.pending p.1
  wakes : s'.wakes = s.wakes
  tasks : s'.tasks = s.tasks
  held : s'.held = s.held
  status : s'.status = s.status
  outcome : s'.outcome = s.outcome

theorem Passed.nil (w : Work α) (s : State α) : Passed w s s [] where
  log := by simp
  pending := fun n => ⟨[], by simp⟩
  fresh := by simp
  wakes := rfl
  tasks := rfl
  held := rfl
  status := rfl
  outcome := rfl

theorem Passed.dispose {w : Work α} {s s' : State α} {ps : List (Nat × α)} (h : Passed w s s' ps) :
    Passed w s (dispose s') ps :=
  ⟨h.log, h.pending, h.fresh, h.wakes, h.tasks, h.held, h.status, h.outcome⟩

theorem Passed.trans {w : Work α} {s s' s'' : State α} {ps qs : List (Nat × α)}
    (h : Passed w s s' ps) (h' : Passed w s' s'' qs) : Passed w s s'' (ps ++ qs) where
  log := by
    intro p
    rw [h'.log, h.log, List.mem_append]
    constructor
    · rintro (h | h | h)
      · exact Or.inl (Or.inr h)
      · exact Or.inl (Or.inl h)
      · exact Or.inr h
    · rintro ((h | h) | h)
      · exact Or.inr (Or.inl h)
      · exact Or.inl h
      · exact Or.inr (Or.inr h)
  pending := by
    intro n
    obtain ⟨l, hl, hm⟩ := h.pending n
    obtain ⟨l', hl', hm'⟩ := h'.pending n
    refine ⟨l ++ l', by rw [hl', hl, List.append_assoc], fun v hv => ?_⟩
    rcases List.mem_append.1 hv with hv | hv
    · exact List.mem_append_left _ (hm v hv)
    · exact List.mem_append_right _ (hm' v hv)
  fresh := by
    intro p hp k hk hu
    rcases List.mem_append.1 hp with hp | hp
    · obtain ⟨l, hl, _⟩ := h'.pending p.1
      rw [hl]
      exact List.mem_append_left _ (h.fresh p hp k hk hu)
    · exact h'.fresh p hp k hk hu
  wakes := h'.wakes.trans h.wakes
  tasks := h'.tasks.trans h.tasks
  held := h'.held.trans h.held
  status := h'.status.trans h.status
  outcome := h'.outcome.trans h.outcome

/-- The operation exists. -/
def Exists (w : Work α) (n : Nat) : Prop := ∃ k, w.ops.lookup n = some k

theorem give_passed {w : Work α} (s : State α) {p : Nat × α} (h : Exists w p.1) :
    Passed w s (give w s p) [p] := by
  obtain ⟨k, hk⟩ := h
  have key : Passed w s { s with
      pending := put s.pending p.1 (s.pending p.1 ++ [p.2])
      log := p :: s.log } [p] := by
    refine ⟨?_, ?_, ?_, rfl, rfl, rfl, rfl, rfl⟩
    · intro q; simp
    · intro n
      by_cases hn : n = p.1
      · subst hn
        exact ⟨[p.2], put_self _ _ _, by simp⟩
      · exact ⟨[], by simp only [put_ne _ _ hn, List.append_nil], by simp⟩
    · intro q hq
      have : q = p := by simpa using hq
      subst this
      intro k _ _
      simp only [put_self]
      simp
  unfold give
  rw [hk]
  cases k with
  | unused =>
    refine ⟨fun q => by simp, fun n => ⟨[], by simp⟩, ?_, rfl, rfl, rfl, rfl, rfl⟩
    intro q hq
    have : q = p := by simpa using hq
    subst this
    intro k' hk' hu
    rw [hk] at hk'
    cases hk'
    exact absurd rfl hu
  | _ => exact key

theorem giveAll_passed {w : Work α} (ps : List (Nat × α)) (s : State α)
    (h : ∀ p, p ∈ ps → Exists w p.1) : Passed w s (giveAll w s ps) ps := by
  unfold giveAll
  induction ps generalizing s with
  | nil => exact Passed.nil w s
  | cons p ps ih =>
    simp only [List.foldl_cons]
    exact (give_passed s (h p List.mem_cons_self)).trans
      (ih _ (fun q hq => h q (List.mem_cons_of_mem _ hq)))

/-! ### What operations send -/

theorem mem_deal {ts : List Nat} {vs : List (List α)} {m : Nat} {u : α} :
    (m, u) ∈ deal ts vs ↔ ∃ (i : Nat) (us : List α), ts[i]? = some m ∧ vs[i]? = some us ∧ u ∈ us := by
  induction ts generalizing vs with
  | nil => simp [deal]
  | cons t ts ih =>
    unfold deal
    rw [List.mem_append, ih]
    constructor
    · rintro (h | ⟨i, us, h1, h2, h3⟩)
      · obtain ⟨a, ha, he⟩ := List.mem_map.1 h
        cases he
        cases vs with
        | nil => simp at ha
        | cons us vs => exact ⟨0, us, rfl, rfl, ha⟩
      · refine ⟨i + 1, us, h1, ?_, h3⟩
        cases vs with
        | nil => simp at h2
        | cons v vs => exact h2
    · rintro ⟨i, us, h1, h2, h3⟩
      cases vs with
      | nil => simp at h2
      | cons v vs =>
        cases i with
        | zero =>
          simp only [List.getElem?_cons_zero, Option.some.injEq] at h1 h2
          subst h1 h2
          exact Or.inl (List.mem_map.2 ⟨u, h3, rfl⟩)
        | succ i => exact Or.inr ⟨i, us, h1, h2, h3⟩

theorem mem_parts {part : Nat → α → α} {v : α} {j : Nat} {ts : List Nat} {m : Nat} {u : α} :
    (m, u) ∈ parts part v j ts ↔ ∃ i : Nat, ts[i]? = some m ∧ u = part (j + i) v := by
  induction ts generalizing j with
  | nil => simp [parts]
  | cons t ts ih =>
    unfold parts
    rw [List.mem_cons, ih]
    constructor
    · rintro (h | ⟨i, h1, h2⟩)
      · cases h
        exact ⟨0, rfl, rfl⟩
      · exact ⟨i + 1, h1, by rw [h2]; congr 1; omega⟩
    · rintro ⟨i, h1, h2⟩
      cases i with
      | zero =>
        simp only [List.getElem?_cons_zero, Option.some.injEq] at h1
        subst h1
        exact Or.inl (by rw [h2]; rfl)
      | succ i => exact Or.inr ⟨i, h1, by rw [h2]; congr 1; omega⟩

theorem sends_target {k : Kind α} {v : α} {m : Nat} {u : α} (h : Sends k v m u) :
    m ∈ k.shape.targets := by
  cases h with
  | response => simp [Kind.shape, Flow.Kind.targets]
  | item a f t ss items v i m us u h1 _ _ =>
    exact List.mem_cons_of_mem _ (List.mem_of_getElem? h1)
  | fork ts part v i m h1 => exact List.mem_of_getElem? h1
  | first => simp [Kind.shape, Flow.Kind.targets]
  | second => simp [Kind.shape, Flow.Kind.targets]
  | filter => simp [Kind.shape, Flow.Kind.targets]
  | spread => simp [Kind.shape, Flow.Kind.targets]
  | split ts f v i m us u h1 _ _ => exact List.mem_of_getElem? h1

theorem Wired.exists {w : Work α} (hw : Wired w.net) {n : Nat} {k : Kind α}
    (hk : w.ops.lookup n = some k) {m : Nat} (h : m ∈ k.shape.targets) : Exists w m := by
  have := hw.targets n k.shape (List.mem_map.2 ⟨_, Flow.mem_of_lookup hk, rfl⟩) m h
  rw [net_keys] at this
  exact Flow.lookup_of_key this

theorem Wired.entry_exists {w : Work α} (hw : Wired w.net) : Exists w w.entry := by
  have := hw.entry
  rw [net_keys] at this
  exact Flow.lookup_of_key this

/-- An operation that passes its messages on at once. -/
def Kind.passes : Kind α → Bool
  | .node false _ _ _ _ => true
  | .fork _ _ => true
  | .branch _ _ _ => true
  | .filter _ _ => true
  | .spread _ _ => true
  | .split _ _ => true
  | .unused => true
  | _ => false

/-- Such an operation sends what it should. -/
theorem execute_passed {w : Work α} (hw : Wired w.net) (s : State α) {n : Nat} {k : Kind α} (v : α)
    (hk : w.ops.lookup n = some k) (hp : k.passes = true) :
    ∃ ps, Passed w s (execute w s n v k) ps ∧ ∀ m u, (m, u) ∈ ps ↔ Sends k v m u := by
  have ex : ∀ m u, Sends k v m u → Exists w m := fun m u h => Wired.exists hw hk (sends_target h)
  cases k with
  | node async f t ss items =>
    cases async with
    | true => simp [Kind.passes] at hp
    | false =>
      have hs : ∀ m u, (m, u) ∈ deal ss (items v) ++ [(t, f v)] ↔
          Sends (.node false f t ss items) v m u := by
        intro m u
        rw [List.mem_append, mem_deal]
        constructor
        · rintro (⟨i, us, h1, h2, h3⟩ | h)
          · exact .item _ _ _ _ _ _ i m us u h1 h2 h3
          · have : (m, u) = (t, f v) := by simpa using h
            cases this
            exact .response _ _ _ _ _ _
        · intro h
          cases h with
          | response => exact Or.inr (by simp)
          | item _ _ _ _ _ _ i _ us _ h1 h2 h3 => exact Or.inl ⟨i, us, h1, h2, h3⟩
      refine ⟨_, ?_, hs⟩
      have h1 := giveAll_passed (w := w) (deal ss (items v)) s
        (fun p hp => ex p.1 p.2 ((hs _ _).1 (List.mem_append_left _ hp)))
      simp only [execute]
      cases lacks ss (items v) with
      | true => exact h1.dispose.trans (give_passed _ (ex _ _ (.response _ _ _ _ _ _)))
      | false => exact h1.trans (give_passed _ (ex _ _ (.response _ _ _ _ _ _)))
  | fork ts part =>
    have hs : ∀ m u, (m, u) ∈ parts part v 0 ts ↔ Sends (.fork ts part) v m u := by
      intro m u
      rw [mem_parts]
      constructor
      · rintro ⟨i, h1, rfl⟩
        rw [Nat.zero_add]
        exact .fork _ _ _ i m h1
      · intro h
        cases h with
        | fork _ _ _ i _ h1 => exact ⟨i, h1, by rw [Nat.zero_add]⟩
    exact ⟨_, giveAll_passed _ s (fun p hp => ex p.1 p.2 ((hs _ _).1 hp)), hs⟩
  | branch a b f =>
    cases h : f v with
    | inl u =>
      refine ⟨[(a, u)], ?_, ?_⟩
      · simp only [execute, h]
        exact (give_passed s (ex _ _ (.first _ _ _ _ _ h))).dispose
      · intro m x
        constructor
        · intro hm
          have : (m, x) = (a, u) := by simpa using hm
          cases this
          exact .first _ _ _ _ _ h
        · intro hs
          cases hs with
          | first _ _ _ _ _ h' => rw [h] at h'; cases h'; simp
          | second _ _ _ _ _ h' => rw [h] at h'; cases h'
    | inr u =>
      refine ⟨[(b, u)], ?_, ?_⟩
      · simp only [execute, h]
        have h0 : Passed w s (dispose s) [] := (Passed.nil w s).dispose
        exact h0.trans (give_passed (dispose s) (p := (b, u)) (ex _ _ (.second _ _ _ _ _ h)))
      · intro m x
        constructor
        · intro hm
          have : (m, x) = (b, u) := by simpa using hm
          cases this
          exact .second _ _ _ _ _ h
        · intro hs
          cases hs with
          | first _ _ _ _ _ h' => rw [h] at h'; cases h'
          | second _ _ _ _ _ h' => rw [h] at h'; cases h'; simp
  | filter t f =>
    cases h : f v with
    | none =>
      refine ⟨[], ?_, ?_⟩
      · simp only [execute, h]
        exact (Passed.nil w s).dispose
      · intro m x
        constructor
        · intro hm; simp at hm
        · intro hs
          cases hs with
          | filter _ _ _ _ h' => rw [h] at h'; cases h'
    | some u =>
      refine ⟨[(t, u)], ?_, ?_⟩
      · simp only [execute, h]
        exact give_passed s (ex _ _ (.filter _ _ _ _ h))
      · intro m x
        constructor
        · intro hm
          have : (m, x) = (t, u) := by simpa using hm
          cases this
          exact .filter _ _ _ _ h
        · intro hs
          cases hs with
          | filter _ _ _ _ h' => rw [h] at h'; cases h'; simp
  | spread t f =>
    have hs : ∀ m u, (m, u) ∈ (f v).map (fun u => (t, u)) ↔ Sends (.spread t f) v m u := by
      intro m u
      constructor
      · intro h
        obtain ⟨a, ha, he⟩ := List.mem_map.1 h
        cases he
        exact .spread _ _ _ _ ha
      · intro h
        cases h with
        | spread _ _ _ _ h => exact List.mem_map.2 ⟨u, h, rfl⟩
    refine ⟨_, ?_, hs⟩
    have h1 := giveAll_passed _ s (fun p hp => ex p.1 p.2 ((hs _ _).1 hp))
    simp only [execute]
    cases (f v).isEmpty with
    | true => exact h1.dispose
    | false => exact h1
  | split ts f =>
    have hs : ∀ m u, (m, u) ∈ deal ts (f v) ↔ Sends (.split ts f) v m u := by
      intro m u
      rw [mem_deal]
      constructor
      · rintro ⟨i, us, h1, h2, h3⟩
        exact .split _ _ _ i m us u h1 h2 h3
      · intro h
        cases h with
        | split _ _ _ i _ us _ h1 h2 h3 => exact ⟨i, us, h1, h2, h3⟩
    refine ⟨_, ?_, hs⟩
    have h1 := giveAll_passed _ s (fun p hp => ex p.1 p.2 ((hs _ _).1 hp))
    simp only [execute]
    cases lacks ts (f v) with
    | true => exact h1.dispose
    | false => exact h1
  | unused =>
    refine ⟨[], Passed.nil w s, ?_⟩
    intro m u
    constructor
    · intro h; simp at h
    · intro h; cases h
  | _ => simp [Kind.passes] at hp

/-! ### Buffers -/

theorem mem_implPush {q : List α} {r : Retention} {v u : α}
    (h : u ∈ (Buffer.implPush q r v).1) : u = v ∨ u ∈ q := by
  unfold Buffer.implPush at h
  split at h
  · split at h
    · exact Or.inr h
    · exact (List.mem_cons.1 h)
  · split at h
    · rcases List.mem_cons.1 h with h | h
      · exact Or.inl h
      · exact Or.inr ((List.dropLast_sublist _).subset h)
    · split at h
      · exact Or.inr h
      · exact (List.mem_cons.1 h)
  · exact (List.mem_cons.1 h)

theorem implPush_keeps {q : List α} {r : Retention} {v : α}
    (h : q ≠ [] ∨ capacity r ≠ some 0) : (Buffer.implPush q r v).1 ≠ [] := by
  unfold Buffer.implPush
  split
  · rename_i n
    split
    · rename_i hn
      rcases h with h | h
      · exact h
      · intro he
        simp only at he
        subst he
        simp only [List.length_nil, Nat.le_zero] at hn
        exact h (by rw [hn]; rfl)
    · simp
  · split
    · simp
    · split
      · rename_i hn
        rcases h with h | h
        · exact h
        · exact absurd (by rw [hn]; rfl) h
      · simp
  · simp

/-- The values that a join fetches. -/
theorem fetch_spec {held h : Nat → List α} {vs : List α} {bs : List (Nat × Bool)}
    (hf : fetch held bs = some (vs, h)) :
    vs.length = bs.length ∧
    (∀ (i : Nat) (b : Nat × Bool) (v : α), bs[i]? = some b → vs[i]? = some v → v ∈ held b.1) ∧
    (∀ b v, v ∈ h b → v ∈ held b) ∧
    (∀ b, (h b).length ≤ (held b).length) ∧
    ∀ b, (b, false) ∉ bs → h b = held b := by
  induction bs generalizing held vs with
  | nil =>
    simp only [fetch] at hf
    cases hf
    simp
  | cons b bs ih =>
    unfold fetch at hf
    split at hf
    · cases hf
    · rename_i v hv
      split at hf
      · cases hf
      · rename_i vs' h' hf'
        cases hf
        obtain ⟨h1, h2, h3, h4, h5⟩ := ih hf'
        have sub : ∀ c u, u ∈ (if b.2 then held else put held b.1 (held b.1).dropLast) c →
            u ∈ held c := by
          intro c u hu
          split at hu
          · exact hu
          · by_cases hc : c = b.1
            · subst hc
              rw [put_self] at hu
              exact (List.dropLast_sublist _).subset hu
            · rw [put_ne _ _ hc] at hu
              exact hu
        refine ⟨by simp [h1], ?_, fun c u hu => sub c u (h3 c u hu), ?_, ?_⟩
        · intro i c u hc hu
          cases i with
          | zero =>
            simp only [List.getElem?_cons_zero, Option.some.injEq] at hc hu
            subst hc hu
            exact List.mem_of_getLast? hv
          | succ i => exact sub _ _ (h2 i c u hc hu)
        · intro c
          refine Nat.le_trans (h4 c) ?_
          split
          · exact Nat.le_refl _
          · by_cases hc : c = b.1
            · subst hc; rw [put_self]; simp
            · rw [put_ne _ _ hc]; exact Nat.le_refl _
        · intro c hc
          simp only [List.mem_cons, not_or] at hc
          rw [h5 c hc.2]
          split
          · rfl
          · rename_i hb
            refine put_ne _ _ (fun he => hc.1 ?_)
            cases b with
            | mk b1 b2 =>
              have : b2 = false := by simpa using hb
              simp only at he
              rw [he, this]

/-! ### The invariant -/

/-- Everything that is under way is computed by the graph. -/
structure Sound (w : Work α) (x : α) (s : State α) : Prop where
  log : ∀ n v, (n, v) ∈ s.log → Comes w x n v
  pending : ∀ n v, v ∈ s.pending n → Comes w x n v
  tasks : ∀ n job f t ss items, job ∈ s.tasks n → w.ops.lookup n = some (.node true f t ss items) →
    Comes w x t job.response ∧
    ∀ (i m : Nat) (us : List α) (u : α), ss[i]? = some m → job.left[i]? = some us → u ∈ us → Comes w x m u
  held : ∀ b v, v ∈ s.held b → Comes w x b v
  outcome : ∀ v, s.outcome = some v → ∃ n, w.ops.lookup n = some .terminate ∧ Comes w x n v
  ended : s.outcome.isSome ↔ s.status = .terminated
  fits : Fits w s

theorem Sound.passed {w : Work α} {x : α} {s s' : State α} {ps : List (Nat × α)}
    (h : Sound w x s) (hp : Passed w s s' ps) (hc : ∀ n v, (n, v) ∈ ps → Comes w x n v) :
    Sound w x s' where
  log := by
    intro n v hv
    rcases (hp.log _).1 hv with hv | hv
    · exact hc n v hv
    · exact h.log n v hv
  pending := by
    intro n v hv
    obtain ⟨l, hl, hm⟩ := hp.pending n
    rw [hl] at hv
    rcases List.mem_append.1 hv with hv | hv
    · exact h.pending n v hv
    · exact hc n v (hm v hv)
  tasks := by rw [hp.tasks]; exact h.tasks
  held := by rw [hp.held]; exact h.held
  outcome := by rw [hp.outcome]; exact h.outcome
  ended := by rw [hp.outcome, hp.status]; exact h.ended
  fits := by
    intro b r c hb hc
    rw [hp.held]
    exact h.fits b r c hb hc

theorem Sound.taken {w : Work α} {x : α} {s : State α} (h : Sound w x s) {n : Nat} {v : α}
    {vs : List α} (hp : s.pending n = v :: vs) :
    Sound w x { s with pending := put s.pending n vs } where
  log := h.log
  pending := by
    intro m u hu
    by_cases hm : m = n
    · subst hm
      simp only [put_self] at hu
      exact h.pending m u (by rw [hp]; exact List.mem_cons_of_mem _ hu)
    · simp only [put_ne _ _ hm] at hu
      exact h.pending m u hu
  tasks := h.tasks
  held := h.held
  outcome := h.outcome
  ended := h.ended
  fits := h.fits

theorem Sound.jobs {w : Work α} {x : α} {s : State α} (h : Sound w x s) {n : Nat}
    {l : List (Job α)}
    (hl : ∀ job, job ∈ l → ∀ f t ss items, w.ops.lookup n = some (.node true f t ss items) →
      Comes w x t job.response ∧
      ∀ (i m : Nat) (us : List α) (u : α), ss[i]? = some m → job.left[i]? = some us → u ∈ us → Comes w x m u) :
    Sound w x { s with tasks := put s.tasks n l } where
  log := h.log
  pending := h.pending
  tasks := by
    intro m job f t ss items hj hk
    by_cases hm : m = n
    · subst hm
      simp only [put_self] at hj
      exact hl job hj f t ss items hk
    · simp only [put_ne _ _ hm] at hj
      exact h.tasks m job f t ss items hj hk
  held := h.held
  outcome := h.outcome
  ended := h.ended
  fits := h.fits

theorem Sound.cancelled {w : Work α} {x : α} {s : State α} (h : Sound w x s)
    (ha : s.status = .active) : s.outcome = none := by
  cases ho : s.outcome with
  | none => rfl
  | some v =>
    have := h.ended.1 (by rw [ho]; rfl)
    rw [ha] at this
    cases this

theorem Sound.validate {w : Work α} {x : α} {s : State α} (h : Sound w x s)
    (ha : s.status = .active) : Sound w x (validate w s) := by
  have ho := h.cancelled ha
  unfold Values.validate
  split
  · exact h
  · exact ⟨h.log, h.pending, h.tasks, h.held, h.outcome, by simp [ho], h.fits⟩
  · exact ⟨h.log, h.pending, h.tasks, h.held, h.outcome, h.ended, h.fits⟩

theorem Sound.disposed {w : Work α} {x : α} {s : State α} (h : Sound w x s) :
    Sound w x (dispose s) := h.passed (Passed.nil w s).dispose (by simp)

theorem Sound.execute {w : Work α} (hw : Wired w.net) {x : α} {s : State α} (h : Sound w x s)
    (ha : s.status = .active) {n : Nat} {v : α} {k : Kind α} (hk : w.ops.lookup n = some k)
    (hv : Comes w x n v) (hj : ∀ bs t pack, k ≠ .join bs t pack) :
    Sound w x (execute w s n v k) := by
  have passes : k.passes = true → Sound w x (Values.execute w s n v k) := by
    intro hp
    obtain ⟨ps, h1, h2⟩ := execute_passed hw s v hk hp
    exact h.passed h1 (fun m u hm => .send n v k m u hv hk ((h2 m u).1 hm))
  cases k with
  | node async f t ss items =>
    cases async with
    | false => exact passes rfl
    | true =>
      refine h.jobs (n := n) ?_
      intro job hjob f' t' ss' items' hk'
      rcases List.mem_append.1 hjob with hjob | hjob
      · exact h.tasks n job f' t' ss' items' hjob hk'
      · have : job = ⟨items v, f v⟩ := by simpa using hjob
        subst this
        rw [hk] at hk'
        cases hk'
        exact ⟨.send n v _ _ _ hv hk (.response _ _ _ _ _ _),
          fun i m us u h1 h2 h3 => .send n v _ _ _ hv hk (.item _ _ _ _ _ _ i m us u h1 h2 h3)⟩
  | buffer r =>
    refine ⟨h.log, h.pending, h.tasks, ?_, h.outcome, h.ended, ?_⟩
    · intro b u hu
      simp only [Values.execute, notify] at hu
      by_cases hb : b = n
      · subst hb
        rw [put_self] at hu
        rcases mem_implPush hu with hu | hu
        · rw [hu]; exact hv
        · exact h.held b u hu
      · rw [put_ne _ _ hb] at hu
        exact h.held b u hu
    · intro b r' c hb hc
      simp only [Values.execute, notify]
      by_cases hbn : b = n
      · subst hbn
        rw [hk] at hb
        cases hb
        rw [put_self, implPush_length _ _ _ (fun c hc => h.fits b r c hk hc), hc]
        simp only [Flow.push]
        omega
      · rw [put_ne _ _ hbn]
        exact h.fits b r' c hb hc
  | join bs t pack => exact absurd rfl (hj bs t pack)
  | cancel =>
    exact ⟨h.log, h.pending, h.tasks, h.held, h.outcome,
      by simp [Values.execute, h.cancelled ha], h.fits⟩
  | terminate =>
    refine ⟨h.log, h.pending, h.tasks, h.held, ?_, by simp [Values.execute], h.fits⟩
    intro u hu
    simp only [Values.execute, Option.some.injEq] at hu
    subst hu
    exact ⟨n, hk, hv⟩
  | _ => exact passes rfl

theorem Sound.fetched {w : Work α} {x : α} {s : State α} (h : Sound w x s)
    {bs : List (Nat × Bool)} {vs : List α} {hd : Nat → List α}
    (hf : fetch s.held bs = some (vs, hd)) : Sound w x { s with held := hd } := by
  obtain ⟨_, _, h3, h4, _⟩ := fetch_spec hf
  exact ⟨h.log, h.pending, h.tasks, fun b v hv => h.held b v (h3 b v hv), h.outcome, h.ended,
    fun b r c hb hc => Nat.le_trans (h4 b) (h.fits b r c hb hc)⟩

theorem Sound.fire {w : Work α} (hw : Wired w.net) {x : α} {s : State α} (h : Sound w x s)
    (ha : s.status = .active) {n : Nat} {bs : List (Nat × Bool)} {t : Nat} {pack : List α → α}
    (hk : w.ops.lookup n = some (.join bs t pack)) : Sound w x (fire w s bs t pack) := by
  unfold Values.fire
  split
  · rename_i hr
    split
    · exact ⟨h.log, h.pending, h.tasks, h.held, h.outcome, by simp [h.cancelled ha], h.fits⟩
    · rename_i vs hd hf
      obtain ⟨h1, h2, _⟩ := fetch_spec hf
      refine (h.fetched hf).passed (give_passed _ (Wired.exists hw hk
        (by simp [Kind.shape, Flow.Kind.targets]))) ?_
      intro m u hm
      have : (m, u) = (t, pack vs) := by simpa using hm
      cases this
      refine .join n bs t pack vs hk ?_ h1 (fun i b v hb hv => h.held _ _ (h2 i b v hb hv))
      intro he
      simp [he, ready] at hr
  · exact h

theorem Sound.step {w : Work α} (hw : Wired w.net) {x : α} {s : State α} (h : Sound w x s)
    (e : Ev) : Sound w x (step w s e) := by
  by_cases ha : s.status = .active
  · unfold Values.step
    rw [if_neg (fun h => h ha)]
    cases e with
    | exec n =>
      simp only
      cases hk : w.ops.lookup n with
      | none => exact h
      | some k =>
        have other : (∀ bs t pack, k ≠ .join bs t pack) →
            Sound w x (match s.pending n with
              | [] => s
              | v :: vs => Values.execute w { s with pending := put s.pending n vs } n v k) := by
          intro hj
          cases hp : s.pending n with
          | nil => exact h
          | cons v vs =>
            exact Sound.execute hw (h.taken hp) ha hk
              (h.pending n v (by rw [hp]; exact List.mem_cons_self)) hj
        cases k with
        | join bs t pack =>
          simp only
          split
          · exact h
          · exact Sound.fire hw (s := { s with wakes := Flow.drop s.wakes n })
              ⟨h.log, h.pending, h.tasks, h.held, h.outcome, h.ended, h.fits⟩ ha hk
        | _ => exact other (by simp)
    | item n j i =>
      simp only
      split
      · rename_i f t ss items hk
        split
        · rename_i job m hj hm
          split
          · rename_i u us hl
            have hjm := List.mem_of_getElem? hj
            have hjob := h.tasks n job f t ss items hjm hk
            refine (h.jobs (n := n) ?_).passed (give_passed _ (Wired.exists hw hk
              (List.mem_cons_of_mem _ (List.mem_of_getElem? hm)))) ?_
            · intro job' hj' f' t' ss' items' hk'
              rw [hk] at hk'
              cases hk'
              rcases List.mem_or_eq_of_mem_set hj' with hj' | rfl
              · exact h.tasks n job' f t ss items hj' hk
              · refine ⟨hjob.1, fun i' m' us' u' h1 h2 h3 => ?_⟩
                simp only at h2
                by_cases hi : i = i'
                · subst hi
                  rw [List.getElem?_set_self (List.getElem?_eq_some_iff.1 hl).1] at h2
                  cases h2
                  exact hjob.2 i m' _ u' h1 hl (List.mem_cons_of_mem _ h3)
                · rw [List.getElem?_set_ne hi] at h2
                  exact hjob.2 i' m' us' u' h1 h2 h3
            · intro m' u' hmu
              have : (m', u') = (m, u) := by simpa using hmu
              cases this
              exact hjob.2 i m _ u hm hl List.mem_cons_self
          · exact h
        · exact h
      · exact h
    | finish n j =>
      simp only
      split
      · rename_i f t ss items hk
        split
        · rename_i job hj
          split
          · have hjm := List.mem_of_getElem? hj
            have hg : Sound w x (give w { s with tasks := put s.tasks n ((s.tasks n).eraseIdx j) }
                (t, job.response)) := by
              refine (h.jobs (n := n) ?_).passed (give_passed _ (Wired.exists hw hk
                (by simp [Kind.shape, Flow.Kind.targets]))) ?_
              · intro job' hj' f' t' ss' items' hk'
                exact h.tasks n job' f' t' ss' items' (List.mem_of_mem_eraseIdx hj') hk'
              · intro m' u' hmu
                have : (m', u') = (t, job.response) := by simpa using hmu
                cases this
                exact (h.tasks n job f t ss items hjm hk).1
            split
            · exact hg
            · exact hg.disposed
          · exact h
        · exact h
      · exact h
    | lose n j =>
      simp only
      split
      · split
        · refine Sound.disposed (h.jobs (n := n) ?_)
          intro job' hj' f' t' ss' items' hk'
          exact h.tasks n job' f' t' ss' items' (List.mem_of_mem_eraseIdx hj') hk'
        · exact h
      · exact h
    | check =>
      simp only
      split
      · exact h
      · exact Sound.validate (s := { s with checks := s.checks - 1 })
          ⟨h.log, h.pending, h.tasks, h.held, h.outcome, h.ended, h.fits⟩ ha
  · unfold Values.step
    rw [if_pos ha]
    exact h

theorem Sound.received {w : Work α} (hw : Wired w.net) (x : α) : Sound w x (received w x) := by
  have h0 : Sound w x (blank : State α) :=
    ⟨by simp [blank], by simp [blank], by simp [blank], by simp [blank], by simp [blank],
      by simp [blank], by intro b r c _ _; simp [blank]⟩
  refine h0.passed (give_passed _ (Wired.entry_exists hw)) ?_
  intro n v h
  have : (n, v) = (w.entry, x) := by simpa using h
  cases this
  exact .entry

theorem received_active {w : Work α} (hw : Wired w.net) (x : α) :
    (received w x).status = .active :=
  (give_passed (p := (w.entry, x)) (blank : State α) (Wired.entry_exists hw)).status

theorem Sound.start {w : Work α} (hw : Wired w.net) (x : α) : Sound w x (start w x) :=
  (Sound.received hw x).validate (received_active hw x)

theorem Sound.run {w : Work α} (hw : Wired w.net) {x : α} (es : List Ev) {s : State α}
    (h : Sound w x s) : Sound w x (run w s es) := by
  induction es generalizing s with
  | nil => exact h
  | cons e es ih => exact ih (h.step hw e)

end Verif.Values
