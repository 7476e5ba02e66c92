import Verif.Values.Sound

/-
What the graph computes gets under way: every message that an operation was given is still waiting,
or is being worked on, or the operation has done what it does with it.
-/
namespace Verif.Values

open Flow (Wired)
open Buffer (Retention)

variable {α : Type}

/-- An operation has sent all that it sends for `v`. -/
def Sent (s : State α) (k : Kind α) (v : α) : Prop := ∀ m u, Sends k v m u → (m, u) ∈ s.log

/-- A task works on `v`; what it has not sent yet is left to be sent. -/
def Runs (s : State α) (n : Nat) (k : Kind α) (v : α) : Prop :=
  ∃ f t ss items, k = .node true f t ss items ∧ ∃ job, job ∈ s.tasks n ∧ job.response = f v ∧
    ∀ (i m : Nat) (us : List α) (u : α), ss[i]? = some m → (items v)[i]? = some us → u ∈ us →
      (m, u) ∈ s.log ∨ ∃ us', job.left[i]? = some us' ∧ u ∈ us'

/-- A join has fired with values that the graph computes for its buffers. -/
def Fired (w : Work α) (x : α) (s : State α) (bs : List (Nat × Bool)) (t : Nat)
    (pack : List α → α) : Prop :=
  ∃ vs : List α, vs.length = bs.length ∧
    (∀ (i : Nat) (b : Nat × Bool) (v : α), bs[i]? = some b → vs[i]? = some v → Comes w x b.1 v) ∧
    (t, pack vs) ∈ s.log

/-- A join that pulls from the buffer has fired. -/
def Pulled (w : Work α) (x : α) (s : State α) (b : Nat) : Prop :=
  ∃ j bs t pack, w.ops.lookup j = some (.join bs t pack) ∧ (b, false) ∈ bs ∧ Fired w x s bs t pack

structure Told (w : Work α) (x : α) (s : State α) : Prop where
  begun : (w.entry, x) ∈ s.log
  sent : ∀ n v k, (n, v) ∈ s.log → w.ops.lookup n = some k →
    v ∈ s.pending n ∨ Sent s k v ∨ Runs s n k v
  stored : ∀ n v r, (n, v) ∈ s.log → w.ops.lookup n = some (.buffer r) →
    v ∈ s.pending n ∨ s.held n ≠ [] ∨ Pulled w x s n
  ended : ∀ n v, (n, v) ∈ s.log → w.ops.lookup n = some .terminate →
    v ∈ s.pending n ∨ s.status ≠ .active
  armed : ∀ j bs t pack, w.ops.lookup j = some (.join bs t pack) → ready s bs = true →
    s.wakes j ≠ 0 ∨ Fired w x s bs t pack

/-- What an event does. `P`: the messages that operations have taken. -/
structure Moves (w : Work α) (x : α) (s s' : State α) (ps : List (Nat × α))
    (P : Nat → α → Prop) : Prop where
  log : ∀ p, p ∈ s'.log ↔ p ∈ ps ∨ p ∈ s.log
  fresh : ∀ p, p ∈ ps → ∀ k, w.ops.lookup p.1 = some k → k.shape ≠ .unused → p.2 ∈ s'.pending p.1
  old : ∀ n v, v ∈ s.pending n → v ∈ s'.pending n ∨ P n v
  runs : ∀ n k v, w.ops.lookup n = some k → Runs s n k v → Runs s' n k v ∨ Sent s' k v
  held : ∀ b, s.held b ≠ [] → s'.held b ≠ [] ∨ Pulled w x s' b
  armed : ∀ j bs t pack, w.ops.lookup j = some (.join bs t pack) →
    (ready s bs = true → s.wakes j ≠ 0 ∨ Fired w x s bs t pack) → ready s' bs = true →
    s'.wakes j ≠ 0 ∨ Fired w x s' bs t pack
  takenSent : ∀ n v k, P n v → w.ops.lookup n = some k → Sent s' k v ∨ Runs s' n k v
  takenStored : ∀ n v r, P n v → w.ops.lookup n = some (.buffer r) → s'.held n ≠ []
  takenEnded : ∀ n v, P n v → w.ops.lookup n = some .terminate → s'.status ≠ .active
  status : s.status ≠ .active → s'.status ≠ .active

theorem Fired.mono {w : Work α} {x : α} {s s' : State α} {bs : List (Nat × Bool)} {t : Nat}
    {pack : List α → α} (h : Fired w x s bs t pack) (hl : ∀ p, p ∈ s.log → p ∈ s'.log) :
    Fired w x s' bs t pack := by
  obtain ⟨vs, h1, h2, h3⟩ := h
  exact ⟨vs, h1, h2, hl _ h3⟩

theorem Pulled.mono {w : Work α} {x : α} {s s' : State α} {b : Nat} (h : Pulled w x s b)
    (hl : ∀ p, p ∈ s.log → p ∈ s'.log) : Pulled w x s' b := by
  obtain ⟨j, bs, t, pack, h1, h2, h3⟩ := h
  exact ⟨j, bs, t, pack, h1, h2, h3.mono hl⟩

theorem Sent.mono {s s' : State α} {k : Kind α} {v : α} (h : Sent s k v)
    (hl : ∀ p, p ∈ s.log → p ∈ s'.log) : Sent s' k v := fun m u hs => hl _ (h m u hs)

theorem Moves.grows {w : Work α} {x : α} {s s' : State α} {ps : List (Nat × α)}
    {P : Nat → α → Prop} (h : Moves w x s s' ps P) : ∀ p, p ∈ s.log → p ∈ s'.log :=
  fun p hp => (h.log p).2 (Or.inr hp)

theorem Told.moves {w : Work α} {x : α} {s s' : State α} {ps : List (Nat × α)}
    {P : Nat → α → Prop} (h : Told w x s) (hm : Moves w x s s' ps P) : Told w x s' where
  begun := hm.grows _ h.begun
  sent := by
    intro n v k hl hk
    rcases (hm.log _).1 hl with hl | hl
    · by_cases hu : k.shape = .unused
      · refine Or.inr (Or.inl ?_)
        intro m u hs
        cases hs <;> simp [Kind.shape] at hu
      · exact Or.inl (hm.fresh _ hl k hk hu)
    · rcases h.sent n v k hl hk with h1 | h1 | h1
      · rcases hm.old n v h1 with h2 | h2
        · exact Or.inl h2
        · exact Or.inr (hm.takenSent n v k h2 hk)
      · exact Or.inr (Or.inl (h1.mono hm.grows))
      · rcases hm.runs n k v hk h1 with h2 | h2
        · exact Or.inr (Or.inr h2)
        · exact Or.inr (Or.inl h2)
  stored := by
    intro n v r hl hk
    rcases (hm.log _).1 hl with hl | hl
    · exact Or.inl (hm.fresh _ hl _ hk (by simp [Kind.shape]))
    · rcases h.stored n v r hl hk with h1 | h1 | h1
      · rcases hm.old n v h1 with h2 | h2
        · exact Or.inl h2
        · exact Or.inr (Or.inl (hm.takenStored n v r h2 hk))
      · exact Or.inr (hm.held n h1)
      · exact Or.inr (Or.inr (h1.mono hm.grows))
  ended := by
    intro n v hl hk
    rcases (hm.log _).1 hl with hl | hl
    · exact Or.inl (hm.fresh _ hl _ hk (by simp [Kind.shape]))
    · rcases h.ended n v hl hk with h1 | h1
      · rcases hm.old n v h1 with h2 | h2
        · exact Or.inl h2
        · exact Or.inr (hm.takenEnded n v h2 hk)
      · exact Or.inr (hm.status h1)
  armed := fun j bs t pack hk => hm.armed j bs t pack hk (h.armed j bs t pack hk)

/-- Nothing is taken. -/
def Nothing : Nat → α → Prop := fun _ _ => False

theorem ready_congr {s s' : State α} (h : s'.held = s.held) (bs : List (Nat × Bool)) :
    ready s' bs = ready s bs := by
  unfold ready
  rw [h]

theorem Runs.mono {s s' : State α} {n : Nat} {k : Kind α} {v : α} (h : Runs s n k v)
    (ht : ∀ job, job ∈ s.tasks n → job ∈ s'.tasks n) (hl : ∀ p, p ∈ s.log → p ∈ s'.log) :
    Runs s' n k v := by
  obtain ⟨f, t, ss, items, h1, job, h2, h3, h4⟩ := h
  refine ⟨f, t, ss, items, h1, job, ht job h2, h3, fun i m us u h5 h6 h7 => ?_⟩
  rcases h4 i m us u h5 h6 h7 with h8 | h8
  · exact Or.inl (hl _ h8)
  · exact Or.inr h8

/-- An event that changes neither messages, tasks nor buffers. -/
theorem Moves.same {w : Work α} {x : α} {s s' : State α} (h1 : s'.pending = s.pending)
    (h2 : s'.wakes = s.wakes) (h3 : s'.tasks = s.tasks) (h4 : s'.held = s.held)
    (h5 : s'.log = s.log) (h6 : s.status ≠ .active → s'.status ≠ .active) :
    Moves w x s s' [] Nothing where
  log := by rw [h5]; simp
  fresh := by simp
  old := by rw [h1]; exact fun _ _ h => Or.inl h
  runs := fun n k v _ h => Or.inl (h.mono (by rw [h3]; exact fun _ h => h)
    (by rw [h5]; exact fun _ h => h))
  held := by rw [h4]; exact fun _ h => Or.inl h
  armed := by
    intro j bs t pack _ hr h
    rw [ready_congr h4] at h
    rw [h2]
    exact (hr h).imp id (fun hf => hf.mono (by rw [h5]; exact fun _ h => h))
  takenSent := fun _ _ _ h => h.elim
  takenStored := fun _ _ _ h => h.elim
  takenEnded := fun _ _ h => h.elim
  status := h6

/-- A message is taken by an operation that passes on what it gets. -/
theorem Moves.passed {w : Work α} {x : α} {s s' : State α} {n : Nat} {v : α} {vs : List α}
    {k : Kind α} {ps : List (Nat × α)} (hp : s.pending n = v :: vs) (hk : w.ops.lookup n = some k)
    (hk1 : ∀ r, k ≠ .buffer r) (hk2 : k ≠ .terminate)
    (h : Passed w { s with pending := put s.pending n vs } s' ps)
    (hs : ∀ m u, (m, u) ∈ ps ↔ Sends k v m u) :
    Moves w x s s' ps (fun m u => m = n ∧ u = v) where
  log := h.log
  fresh := h.fresh
  old := by
    intro m u hu
    obtain ⟨l, hl, _⟩ := h.pending m
    rw [hl]
    by_cases hm : m = n
    · subst hm
      simp only [put_self]
      rw [hp] at hu
      rcases List.mem_cons.1 hu with rfl | hu
      · exact Or.inr (by simp)
      · exact Or.inl (List.mem_append_left _ hu)
    · simp only [put_ne _ _ hm]
      exact Or.inl (List.mem_append_left _ hu)
  runs := fun m k' u _ hr => Or.inl (hr.mono (by rw [h.tasks]; exact fun _ h => h)
    (fun p hp => (h.log p).2 (Or.inr hp)))
  held := by rw [h.held]; exact fun _ h => Or.inl h
  armed := by
    intro j bs t pack _ hr hr'
    rw [ready_congr h.held] at hr'
    rw [h.wakes]
    exact (hr hr').imp id (fun hf => hf.mono (fun p hp => (h.log p).2 (Or.inr hp)))
  takenSent := by
    rintro m u k' ⟨rfl, rfl⟩ hk'
    rw [hk] at hk'
    cases hk'
    exact Or.inl (fun m' u' hs' => (h.log _).2 (Or.inl ((hs m' u').2 hs')))
  takenStored := by
    rintro m u r ⟨rfl, rfl⟩ hk'
    rw [hk] at hk'
    cases hk'
    exact absurd rfl (hk1 r)
  takenEnded := by
    rintro m u ⟨rfl, rfl⟩ hk'
    rw [hk] at hk'
    cases hk'
    exact absurd rfl hk2
  status := by rw [h.status]; exact fun h => h

theorem foldl_bump_le (l : List Nat) (f : Nat → Nat) (m : Nat) : f m ≤ l.foldl Flow.bump f m := by
  induction l generalizing f with
  | nil => exact Nat.le_refl _
  | cons a l ih => exact Nat.le_trans (Flow.bump_le f a m) (ih _)

theorem foldl_bump_mem {l : List Nat} (f : Nat → Nat) {m : Nat} (h : m ∈ l) :
    l.foldl Flow.bump f m ≠ 0 := by
  induction l generalizing f with
  | nil => simp at h
  | cons a l ih =>
    simp only [List.foldl_cons]
    rcases List.mem_cons.1 h with rfl | h
    · have := foldl_bump_le l (Flow.bump f m) m
      rw [Flow.bump_self] at this
      omega
    · exact ih _ h

theorem old_taken {s : State α} {n : Nat} {v : α} {vs : List α} (hp : s.pending n = v :: vs)
    (m : Nat) (u : α) (hu : u ∈ s.pending m) : u ∈ put s.pending n vs m ∨ (m = n ∧ u = v) := by
  by_cases hm : m = n
  · subst hm
    rw [put_self]
    rw [hp] at hu
    rcases List.mem_cons.1 hu with rfl | hu
    · exact Or.inr ⟨rfl, rfl⟩
    · exact Or.inl hu
  · rw [put_ne _ _ hm]
    exact Or.inl hu

/-- What an operation does with its oldest message. -/
theorem moves_exec {w : Work α} (hw : Wired w.net) {x : α} (hroom : ∀ b r,
    w.ops.lookup b = some (.buffer r) → capacity r ≠ some 0) {s : State α}
    {n : Nat} {v : α} {vs : List α} {k : Kind α} (hp : s.pending n = v :: vs)
    (hk : w.ops.lookup n = some k) (hj : ∀ bs t pack, k ≠ .join bs t pack) :
    ∃ ps, Moves w x s (execute w { s with pending := put s.pending n vs } n v k) ps
      (fun m u => m = n ∧ u = v) := by
  have passes : k.passes = true → ∃ ps,
      Moves w x s (execute w { s with pending := put s.pending n vs } n v k) ps
        (fun m u => m = n ∧ u = v) := by
    intro hps
    obtain ⟨ps, h1, h2⟩ := execute_passed hw { s with pending := put s.pending n vs } v hk hps
    refine ⟨ps, .passed hp hk ?_ ?_ h1 h2⟩
    · rintro r rfl; simp [Kind.passes] at hps
    · rintro rfl; simp [Kind.passes] at hps
  cases k with
  | node async f t ss items =>
    cases async with
    | false => exact passes rfl
    | true =>
      refine ⟨[], ?_⟩
      have hin : ∀ m job, job ∈ s.tasks m →
          job ∈ put s.tasks n (s.tasks n ++ [⟨items v, f v⟩]) m := by
        intro m job hjob
        by_cases hm : m = n
        · subst hm; rw [put_self]; exact List.mem_append_left _ hjob
        · rw [put_ne _ _ hm]; exact hjob
      refine ⟨by simp [execute], by simp, old_taken hp, ?_, fun _ h => Or.inl h, ?_, ?_, ?_, ?_,
        fun h => h⟩
      · intro m k' u _ hr
        exact Or.inl (hr.mono (hin m) (fun _ h => h))
      · intro j bs t' pack _ hr hr'
        exact hr hr'
      · rintro m u k' ⟨rfl, rfl⟩ hk'
        rw [hk] at hk'
        cases hk'
        refine Or.inr ⟨f, t, ss, items, rfl, ⟨items u, f u⟩, ?_, rfl, ?_⟩
        · show _ ∈ put s.tasks m _ m
          rw [put_self]
          simp
        · intro i m' us u' h1 h2 h3
          exact Or.inr ⟨us, h2, h3⟩
      · rintro m u r ⟨rfl, rfl⟩ hk'
        rw [hk] at hk'
        cases hk'
      · rintro m u ⟨rfl, rfl⟩ hk'
        rw [hk] at hk'
        cases hk'
  | buffer r =>
    refine ⟨[], ?_⟩
    have hne : ∀ b, s.held b ≠ [] → put s.held n (Buffer.implPush (s.held n) r v).1 b ≠ [] := by
      intro b hb
      by_cases hbn : b = n
      · subst hbn; rw [put_self]; exact implPush_keeps (Or.inl hb)
      · rw [put_ne _ _ hbn]; exact hb
    refine ⟨by simp [execute, notify], by simp, old_taken hp, ?_, fun b hb => Or.inl (hne b hb), ?_,
      ?_, ?_, ?_, fun h => h⟩
    · intro m k' u _ hr
      exact Or.inl (hr.mono (fun _ h => h) (fun _ h => h))
    · intro j bs t' pack hj' hr hr'
      by_cases hb : n ∈ bs.map (·.1)
      · exact Or.inl (foldl_bump_mem _ ((mem_listeners hw).2 ⟨bs, t', pack, hj', hb⟩))
      · have hrs : ready s bs = true := by
          unfold ready at hr' ⊢
          rw [Bool.and_eq_true] at hr' ⊢
          refine ⟨hr'.1, ?_⟩
          rw [List.all_eq_true] at hr' ⊢
          intro b hbs
          have := hr'.2 b hbs
          have hbn : b.1 ≠ n := fun he => hb (he ▸ List.mem_map_of_mem hbs)
          simp only [execute, notify, put_ne _ _ hbn] at this
          exact this
        refine (hr hrs).imp (fun h => ?_) (fun hf => hf.mono (fun _ h => h))
        have := foldl_bump_le (Flow.listeners w.net n) s.wakes j
        show List.foldl Flow.bump s.wakes (Flow.listeners w.net n) j ≠ 0
        omega
    · rintro m u k' ⟨rfl, rfl⟩ hk'
      rw [hk] at hk'
      cases hk'
      refine Or.inl ?_
      intro m' u' hs
      cases hs
    · rintro m u r' ⟨rfl, rfl⟩ hk'
      show put s.held m _ m ≠ []
      rw [put_self]
      exact implPush_keeps (Or.inr (hroom _ _ hk))
    · rintro m u ⟨rfl, rfl⟩ hk'
      rw [hk] at hk'
      cases hk'
  | join bs t pack => exact absurd rfl (hj bs t pack)
  | cancel =>
    refine ⟨[], by simp [execute], by simp, old_taken hp, ?_, fun _ h => Or.inl h, ?_, ?_, ?_, ?_,
      ?_⟩
    · intro m k' u _ hr
      exact Or.inl (hr.mono (fun _ h => h) (fun _ h => h))
    · intro j bs t' pack _ hr hr'
      exact hr hr'
    · rintro m u k' ⟨rfl, rfl⟩ hk'
      rw [hk] at hk'
      cases hk'
      refine Or.inl ?_
      intro m' u' hs
      cases hs
    · rintro m u r ⟨rfl, rfl⟩ hk'
      rw [hk] at hk'
      cases hk'
    · intro m u _ _
      simp [execute]
    · simp [execute]
  | terminate =>
    refine ⟨[], by simp [execute], by simp, old_taken hp, ?_, fun _ h => Or.inl h, ?_, ?_, ?_, ?_,
      ?_⟩
    · intro m k' u _ hr
      exact Or.inl (hr.mono (fun _ h => h) (fun _ h => h))
    · intro j bs t' pack _ hr hr'
      exact hr hr'
    · rintro m u k' ⟨rfl, rfl⟩ hk'
      rw [hk] at hk'
      cases hk'
      refine Or.inl ?_
      intro m' u' hs
      cases hs
    · rintro m u r ⟨rfl, rfl⟩ hk'
      rw [hk] at hk'
      cases hk'
    · intro m u _ _
      simp [execute]
    · simp [execute]
  | _ => exact passes rfl

/-- What a join does when it is told of its buffers. -/
theorem moves_fire {w : Work α} (hw : Wired w.net) {x : α} {s : State α} (hso : Sound w x s)
    {n : Nat} {bs : List (Nat × Bool)} {t : Nat} {pack : List α → α}
    (hk : w.ops.lookup n = some (.join bs t pack)) :
    ∃ ps, Moves w x s (fire w { s with wakes := Flow.drop s.wakes n } bs t pack) ps Nothing ∧
      (ready s bs = true → Fired w x (fire w { s with wakes := Flow.drop s.wakes n } bs t pack)
        bs t pack) := by
  unfold fire
  split
  · rename_i hr
    have hr' : ready s bs = true := hr
    have hne : ∀ b, b ∈ bs → s.held b.1 ≠ [] := by
      intro b hb
      unfold ready at hr'
      rw [Bool.and_eq_true, List.all_eq_true] at hr'
      have := hr'.2 b hb
      intro he
      simp [he] at this
    obtain ⟨⟨vs, hd⟩, hf⟩ := fetch_some s.held bs (Wired.distinct hw hk) hne
    have hf' : fetch ({ s with wakes := Flow.drop s.wakes n } : State α).held bs = some (vs, hd) := hf
    rw [hf']
    simp only
    obtain ⟨h1, h2, h3, h4, h5⟩ := fetch_spec hf
    have hp := give_passed (w := w) ({ s with wakes := Flow.drop s.wakes n, held := hd } : State α)
      (p := (t, pack vs)) (Wired.exists hw hk (by simp [Kind.shape, Flow.Kind.targets]))
    generalize give w { s with wakes := Flow.drop s.wakes n, held := hd } (t, pack vs) = s' at hp
    have hgrow : ∀ p, p ∈ s.log → p ∈ s'.log := fun p h => (hp.log p).2 (Or.inr h)
    have hfired : Fired w x s' bs t pack :=
      ⟨vs, h1, fun i b v hb hv => hso.held _ _ (h2 i b v hb hv), (hp.log _).2 (Or.inl (by simp))⟩
    refine ⟨[(t, pack vs)], ⟨hp.log, hp.fresh, ?_, ?_, ?_, ?_, fun _ _ _ h => h.elim,
      fun _ _ _ h => h.elim, fun _ _ h => h.elim, ?_⟩, fun _ => hfired⟩
    · intro m u hu
      obtain ⟨l, hl, _⟩ := hp.pending m
      rw [hl]
      exact Or.inl (List.mem_append_left _ hu)
    · intro m k' u _ hr
      exact Or.inl (hr.mono (by rw [hp.tasks]; exact fun _ h => h) hgrow)
    · intro b hb
      rw [hp.held]
      simp only
      by_cases hbs : (b, false) ∈ bs
      · exact Or.inr ⟨n, bs, t, pack, hk, hbs, hfired⟩
      · rw [h5 b hbs]; exact Or.inl hb
    · intro j bs' t' pack' hk' harm hr1
      by_cases hjn : j = n
      · subst hjn
        rw [hk] at hk'
        cases hk'
        exact Or.inr hfired
      · have hrs : ready s bs' = true := by
          unfold ready at hr1 ⊢
          rw [Bool.and_eq_true] at hr1 ⊢
          refine ⟨hr1.1, ?_⟩
          rw [List.all_eq_true] at hr1 ⊢
          intro b hb
          have := hr1.2 b hb
          rw [hp.held] at this
          simp only at this
          cases hh : s.held b.1 with
          | nil =>
            have h6 := h4 b.1
            rw [hh] at h6
            simp only [List.length_nil, Nat.le_zero] at h6
            rw [List.length_eq_zero_iff.1 h6] at this
            exact this
          | cons a l => rfl
        rw [hp.wakes]
        simp only
        rw [Flow.drop_ne _ hjn]
        exact (harm hrs).imp id (fun hf => hf.mono hgrow)
    · rw [hp.status]; exact fun h => h
  · rename_i hr
    have hr' : ¬ ready s bs = true := hr
    refine ⟨[], ⟨by simp, by simp, fun _ _ h => Or.inl h, ?_, fun _ h => Or.inl h, ?_,
      fun _ _ _ h => h.elim, fun _ _ _ h => h.elim, fun _ _ h => h.elim, fun h => h⟩,
      fun h => absurd h hr'⟩
    · intro m k' u _ hr
      exact Or.inl (hr.mono (fun _ h => h) (fun _ h => h))
    · intro j bs' t' pack' hk' harm hr1
      have hr1' : ready s bs' = true := hr1
      by_cases hjn : j = n
      · subst hjn
        rw [hk] at hk'
        cases hk'
        exact absurd hr1' hr'
      · simp only
        rw [Flow.drop_ne _ hjn]
        exact (harm hr1').imp id (fun hf => hf.mono (fun _ h => h))

/-- A task sends an item. -/
theorem moves_item {w : Work α} (hw : Wired w.net) {x : α} {s : State α} {n j i : Nat}
    {f : α → α} {t : Nat} {ss : List Nat} {items : α → List (List α)} {job : Job α} {m : Nat}
    {u : α} {us : List α} (hk : w.ops.lookup n = some (.node true f t ss items))
    (hj : (s.tasks n)[j]? = some job) (hm : ss[i]? = some m) (hl : job.left[i]? = some (u :: us)) :
    Moves w x s (give w { s with
      tasks := put s.tasks n ((s.tasks n).set j ⟨job.left.set i us, job.response⟩) } (m, u))
      [(m, u)] Nothing := by
  have hp := give_passed (w := w) ({ s with
      tasks := put s.tasks n ((s.tasks n).set j ⟨job.left.set i us, job.response⟩) } : State α)
    (p := (m, u)) (Wired.exists hw hk (List.mem_cons_of_mem _ (List.mem_of_getElem? hm)))
  generalize give w { s with
      tasks := put s.tasks n ((s.tasks n).set j ⟨job.left.set i us, job.response⟩) } (m, u) = s'
    at hp
  have hgrow : ∀ p, p ∈ s.log → p ∈ s'.log := fun p h => (hp.log p).2 (Or.inr h)
  refine ⟨hp.log, hp.fresh, ?_, ?_, ?_, ?_, fun _ _ _ h => h.elim, fun _ _ _ h => h.elim,
    fun _ _ h => h.elim, ?_⟩
  · intro a b hb
    obtain ⟨l, hl, _⟩ := hp.pending a
    rw [hl]
    exact Or.inl (List.mem_append_left _ hb)
  · intro n' k v hk' hr
    obtain ⟨f', t', ss', items', h1, job', h2, h3, h4⟩ := hr
    subst h1
    refine Or.inl ⟨f', t', ss', items', rfl, ?_⟩
    have htasks : s'.tasks = put s.tasks n ((s.tasks n).set j ⟨job.left.set i us, job.response⟩) :=
      hp.tasks
    by_cases hn : n' = n
    · subst hn
      rw [hk] at hk'
      cases hk'
      rw [htasks, put_self]
      obtain ⟨j', hlt, hj'⟩ := List.mem_iff_getElem.1 h2
      by_cases hjj : j = j'
      · subst hjj
        rw [List.getElem?_eq_getElem hlt, hj'] at hj
        cases hj
        refine ⟨_, List.mem_iff_getElem.2 ⟨j, by simpa using hlt, List.getElem_set_self _⟩, h3, ?_⟩
        intro i' m' us' u' h5 h6 h7
        rcases h4 i' m' us' u' h5 h6 h7 with h8 | ⟨us'', h8, h9⟩
        · exact Or.inl (hgrow _ h8)
        · by_cases hi : i = i'
          · subst hi
            rw [hl] at h8
            cases h8
            rw [hm] at h5
            cases h5
            rcases List.mem_cons.1 h9 with rfl | h9
            · exact Or.inl ((hp.log _).2 (Or.inl (by simp)))
            · refine Or.inr ⟨us, ?_, h9⟩
              exact List.getElem?_set_self (List.getElem?_eq_some_iff.1 hl).1
          · refine Or.inr ⟨us'', ?_, h9⟩
            simp only
            rw [List.getElem?_set_ne hi]
            exact h8
      · refine ⟨job', ?_, h3, ?_⟩
        · refine List.mem_iff_getElem.2 ⟨j', by simpa using hlt, ?_⟩
          rw [List.getElem_set_ne hjj]
          exact hj'
        · intro i' m' us' u' h5 h6 h7
          exact (h4 i' m' us' u' h5 h6 h7).imp (hgrow _) id
    · rw [htasks, put_ne _ _ hn]
      refine ⟨job', h2, h3, ?_⟩
      intro i' m' us' u' h5 h6 h7
      exact (h4 i' m' us' u' h5 h6 h7).imp (hgrow _) id
  · rw [hp.held]; exact fun _ h => Or.inl h
  · intro j' bs t' pack _ hr hr'
    rw [ready_congr hp.held] at hr'
    rw [hp.wakes]
    exact (hr hr').imp id (fun hf => hf.mono hgrow)
  · rw [hp.status]; exact fun h => h

/-- A task responds. -/
theorem moves_finish {w : Work α} (hw : Wired w.net) {x : α} {s : State α} {n j : Nat}
    {f : α → α} {t : Nat} {ss : List Nat} {items : α → List (List α)} {job : Job α}
    (hk : w.ops.lookup n = some (.node true f t ss items)) (hj : (s.tasks n)[j]? = some job)
    (hs : job.sent ss = true) :
    Moves w x s (give w { s with tasks := put s.tasks n ((s.tasks n).eraseIdx j) }
      (t, job.response)) [(t, job.response)] Nothing := by
  have hp := give_passed (w := w) ({ s with
      tasks := put s.tasks n ((s.tasks n).eraseIdx j) } : State α)
    (p := (t, job.response)) (Wired.exists hw hk (by simp [Kind.shape, Flow.Kind.targets]))
  generalize give w { s with tasks := put s.tasks n ((s.tasks n).eraseIdx j) } (t, job.response) = s'
    at hp
  have hgrow : ∀ p, p ∈ s.log → p ∈ s'.log := fun p h => (hp.log p).2 (Or.inr h)
  refine ⟨hp.log, hp.fresh, ?_, ?_, ?_, ?_, fun _ _ _ h => h.elim, fun _ _ _ h => h.elim,
    fun _ _ h => h.elim, ?_⟩
  · intro a b hb
    obtain ⟨l, hl, _⟩ := hp.pending a
    rw [hl]
    exact Or.inl (List.mem_append_left _ hb)
  · intro n' k v hk' hr
    obtain ⟨f', t', ss', items', h1, job', h2, h3, h4⟩ := hr
    subst h1
    have htasks : s'.tasks = put s.tasks n ((s.tasks n).eraseIdx j) := hp.tasks
    by_cases hn : n' = n
    · subst hn
      rw [hk] at hk'
      cases hk'
      obtain ⟨j', hlt, hj'⟩ := List.mem_iff_getElem.1 h2
      by_cases hjj : j' = j
      · subst hjj
        rw [List.getElem?_eq_getElem hlt, hj'] at hj
        cases hj
        refine Or.inr ?_
        intro m u hsend
        cases hsend with
        | response => rw [← h3]; exact (hp.log _).2 (Or.inl (by simp))
        | item _ _ _ _ _ _ i _ us _ h5 h6 h7 =>
          rcases h4 i m us u h5 h6 h7 with h8 | ⟨us', h8, h9⟩
          · exact hgrow _ h8
          · unfold Job.sent at hs
            rw [List.all_eq_true] at hs
            have hi : i < ss.length := (List.getElem?_eq_some_iff.1 h5).1
            have : us' ∈ job.left.take ss.length := by
              refine List.mem_of_getElem? (i := i) ?_
              rw [List.getElem?_take, if_pos hi]
              exact h8
            have := hs us' this
            cases us' with
            | nil => simp at h9
            | cons a l => simp at this
      · refine Or.inl ⟨f, t, ss, items, rfl, job', ?_, h3, ?_⟩
        · rw [htasks, put_self]
          exact List.mem_eraseIdx_iff_getElem.2 ⟨j', hlt, hjj, hj'⟩
        · intro i' m' us' u' h5 h6 h7
          exact (h4 i' m' us' u' h5 h6 h7).imp (hgrow _) id
    · refine Or.inl ⟨f', t', ss', items', rfl, job', ?_, h3, ?_⟩
      · rw [htasks, put_ne _ _ hn]; exact h2
      · intro i' m' us' u' h5 h6 h7
        exact (h4 i' m' us' u' h5 h6 h7).imp (hgrow _) id
  · rw [hp.held]; exact fun _ h => Or.inl h
  · intro j' bs t' pack _ hr hr'
    rw [ready_congr hp.held] at hr'
    rw [hp.wakes]
    exact (hr hr').imp id (fun hf => hf.mono hgrow)
  · rw [hp.status]; exact fun h => h

theorem Moves.disposed {w : Work α} {x : α} {s s' : State α} {ps : List (Nat × α)}
    {P : Nat → α → Prop} (h : Moves w x s s' ps P) : Moves w x s (dispose s') ps P :=
  ⟨h.log, h.fresh, h.old, h.runs, h.held, h.armed, h.takenSent, h.takenStored, h.takenEnded,
    h.status⟩

theorem moves_validate {w : Work α} {x : α} (s : State α) (ha : s.status = .active) :
    Moves w x s (validate w { s with checks := s.checks - 1 }) [] Nothing := by
  unfold validate
  split <;> exact .same rfl rfl rfl rfl rfl (fun h => absurd ha h)

/-- Every event in which no task is lost. -/
theorem moves_step {w : Work α} (hw : Wired w.net) {x : α} (hroom : ∀ b r,
    w.ops.lookup b = some (.buffer r) → capacity r ≠ some 0) {s : State α} (hso : Sound w x s)
    (e : Ev) (he : Kept e) : ∃ ps P, Moves w x s (step w s e) ps P := by
  have same : ∃ ps P, Moves w x s s ps P := ⟨[], Nothing, .same rfl rfl rfl rfl rfl (fun h => h)⟩
  by_cases ha : s.status = .active
  · unfold step
    rw [if_neg (fun h => h ha)]
    cases e with
    | exec n =>
      simp only
      cases hk : w.ops.lookup n with
      | none => exact same
      | some k =>
        have other : (∀ bs t pack, k ≠ .join bs t pack) →
            ∃ ps P, Moves w x s (match s.pending n with
              | [] => s
              | v :: vs => execute w { s with pending := put s.pending n vs } n v k) ps P := by
          intro hj
          cases hp : s.pending n with
          | nil => exact same
          | cons v vs =>
            obtain ⟨ps, h⟩ := moves_exec hw (x := x) hroom hp hk hj
            exact ⟨ps, _, h⟩
        cases k with
        | join bs t pack =>
          simp only
          split
          · exact same
          · obtain ⟨ps, h, _⟩ := moves_fire hw hso hk
            exact ⟨ps, _, h⟩
        | _ => exact other (by simp)
    | item n j i =>
      simp only
      split
      · rename_i f t ss items hk
        split
        · rename_i job m hj hm
          split
          · rename_i u us hl
            exact ⟨_, _, moves_item hw hk hj hm hl⟩
          · exact same
        · exact same
      · exact same
    | finish n j =>
      simp only
      split
      · rename_i f t ss items hk
        split
        · rename_i job hj
          split
          · rename_i hs
            have := moves_finish hw (x := x) hk hj hs
            split
            · exact ⟨_, _, this⟩
            · exact ⟨_, _, this.disposed⟩
          · exact same
        · exact same
      · exact same
    | lose n j => exact he.elim
    | check =>
      simp only
      split
      · exact same
      · exact ⟨_, _, moves_validate s ha⟩
  · unfold step
    rw [if_pos ha]
    exact same

end Verif.Values
