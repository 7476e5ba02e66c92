import Verif.Flow.Lemmas

/-
Helper lemmas for C78: each event keeps the terminal live or announces a disposal, and a join
that could fire has a notification.
-/
namespace Verif.Flow

open Graph (Live)

/-- Some buffer of each join holds no more values than the join has notifications. -/
def Notified (net : Net) (s : State) : Prop :=
  ∀ j bs t, net.ops.lookup j = some (.join bs t) → ∃ b, b ∈ bs ∧ s.held b.1 ≤ s.pending j

theorem Wired.bufs {net : Net} (hw : Wired net) : ∀ j bs t,
    net.ops.lookup j = some (.join bs t) → ∀ b, b ∈ bs →
      ∃ cap, net.ops.lookup b.1 = some (.buffer cap) := by
  intro j bs t hj b hb
  obtain ⟨cap, hc⟩ := (hw.joins j bs t (mem_of_lookup hj)).2.2 b hb
  exact ⟨cap, lookup_of_mem hw.keys hc⟩

theorem Wired.listened {net : Net} (hw : Wired net) {b m : Nat} {k : Kind}
    (hb : ∃ cap, net.ops.lookup b = some (.buffer cap)) (hi : b ∈ inputs net m)
    (hk : net.ops.lookup m = some k) : m ∈ listeners net b ∧ k.plain = true := by
  rcases mem_inputs.1 hi with ⟨k', h1, h2⟩ | ⟨bs, t, h1, h2⟩
  · obtain ⟨cap, hc⟩ := hb
    rw [lookup_of_mem hw.keys h1] at hc
    cases hc
    simp [Kind.targets] at h2
  · rw [hk] at h1
    cases h1
    exact ⟨mem_listeners.2 (Or.inr ⟨bs, t, mem_of_lookup hk, h2⟩), rfl⟩

theorem Wired.sent {net : Net} (hw : Wired net) {n m : Nat} {k : Kind}
    (hk : net.ops.lookup n = some k) (hb : ∀ cap, k ≠ .buffer cap) (hi : n ∈ inputs net m) :
    m ∈ k.targets := by
  rcases mem_inputs.1 hi with ⟨k', h1, h2⟩ | ⟨bs, t, h1, h2⟩
  · rw [lookup_of_mem hw.keys h1] at hk
    cases hk
    exact h2
  · obtain ⟨cap, hc⟩ := (hw.accesses m true bs t (mem_of_lookup h1)).2 n h2
    rw [lookup_of_mem hw.keys hc] at hk
    cases hk
    exact absurd rfl (hb cap)

/-- Keys stay in use. -/
structure Keeps (s s' : State) : Prop where
  keys : ∀ m, s.keys m ≤ s'.keys m
  dropping : ∀ m, s.dropping m ≤ s'.dropping m
  made : ∀ m, s.made m = true → s'.made m = true

theorem Keeps.used {s s' : State} (h : Keeps s s') {a : Nat} {bs : List Nat}
    (hu : used s a bs = true) : Flow.used s' a bs = true := by
  have h1 := h.keys a
  have h2 := h.dropping a
  have h3 := h.made a
  simp only [Flow.used, Bool.or_eq_true, Bool.and_eq_true, decide_eq_true_eq] at hu ⊢
  rcases hu with (hu | hu) | ⟨hu, hl⟩
  · left; left; omega
  · left; right; omega
  · exact Or.inr ⟨h3 hu, hl⟩

theorem Keeps.same {s s' : State} (h1 : s'.keys = s.keys) (h2 : s'.dropping = s.dropping)
    (h3 : s'.made = s.made) : Keeps s s' := by
  refine ⟨fun m => ?_, fun m => ?_, fun m => ?_⟩
  · rw [h1]; exact Nat.le_refl _
  · rw [h2]; exact Nat.le_refl _
  · rw [h3]; exact id

theorem Given.keeps {net : Net} {s s' : State} {ms : List Nat} (h : Given net s s' ms) :
    Keeps s s' := .same h.keys h.dropping h.made

theorem Keeps.trans {s s' s'' : State} (h : Keeps s s') (h' : Keeps s' s'') : Keeps s s'' :=
  ⟨fun m => Nat.le_trans (h.keys m) (h'.keys m),
    fun m => Nat.le_trans (h.dropping m) (h'.dropping m), fun m hm => h'.made m (h.made m hm)⟩

theorem isOpen_congr {s s' : State} (h : s'.gates = s.gates) (b : Nat) :
    isOpen s' b = isOpen s b := by
  unfold isOpen
  rw [h]

/-- After `n`, which is not a gate, has got rid of a message or a task and has given something to
all that it feeds. -/
theorem moves_of_given {net : Net} (hw : Wired net) {s s0 s' : State} {n : Nat} {k : Kind}
    {ms : List Nat} (hk : net.ops.lookup n = some k)
    (hp : ∀ m, m ≠ n → s.pending m ≤ s0.pending m)
    (ht : ∀ m, m ≠ n → s.tasks m ≤ s0.tasks m)
    (hkeep : Keeps s s0) (hgates : s0.gates = s.gates)
    (hg : Given net s0 s' ms) (hall : ∀ m, m ∈ k.targets → m ∈ ms)
    (hheld : ∀ j bs t, net.ops.lookup j = some (.join bs t) → j ≠ n →
      ∀ b, b ∈ bs → 0 < s.held b.1 → 0 < s0.held b.1)
    (hbuf : ∀ cap, k = .buffer cap → 0 < s0.held n ∧ ∀ m, m ∈ listeners net n → m ∈ ms)
    (hacc : ∀ l bs t, k = .access l bs t → used s0 n bs = true)
    (hgate : ∀ o bs t, k ≠ .gate o bs t) : Moves net s s' (· = n) where
  act := by
    intro m k' hk' ha
    by_cases hmn : m = n
    · exact Or.inr hmn
    · left
      refine active_mono (Nat.le_trans (hp m hmn) (hg.le m)) ?_ ha
      rw [hg.tasks]
      exact ht m hmn
  buf := by
    intro b cap _
    right
    by_cases hbn : b = n
    · exact Or.inl hbn
    · right
      refine ⟨(isOpen_congr hg.gates b).trans (isOpen_congr hgates b), fun _ h => ?_⟩
      exact Nat.lt_of_lt_of_le h (Nat.le_trans (hp b hbn) (hg.le b))
  feed := by
    rintro x m k' rfl hi hk' hu
    have hmem : m ∈ ms := by
      by_cases hb : ∃ cap, k = .buffer cap
      · obtain ⟨cap, rfl⟩ := hb
        exact (hbuf cap rfl).2 m (hw.listened ⟨cap, hk⟩ hi hk').1
      · exact hall m (hw.sent hk (fun cap hc => hb ⟨cap, hc⟩) hi)
    have := hg.got m k' hmem hk' hu
    omega
  opened := by
    rintro g b bs t rfl hg' _ _
    rw [hk] at hg'
    exact absurd (Option.some.inj hg') (hgate true bs t)
  key := fun a l bs t _ hu => (hkeep.trans hg.keeps).used hu
  granted := by
    rintro a l bs t rfl ha
    rw [hk] at ha
    exact hg.keeps.used (hacc l bs t (Option.some.inj ha))
  join := by
    intro j bs t hj
    by_cases hjn : j = n
    · exact Or.inl hjn
    · right
      intro b hb h0
      left
      rw [hg.held]
      exact hheld j bs t hj hjn b hb h0
  stored := by
    rintro b rfl ⟨j, bs, t, hj, hb⟩
    rw [hg.held]
    obtain ⟨b', hb', rfl⟩ := List.mem_map.1 hb
    obtain ⟨cap, hc⟩ := (hw.joins j bs t hj).2.2 b' hb'
    rw [lookup_of_mem hw.keys hc] at hk
    exact (hbuf cap (Option.some.inj hk).symm).1

/-- After an event that only adds. -/
theorem moves_of_more {net : Net} {s s' : State}
    (hp : ∀ m, s.pending m ≤ s'.pending m) (ht : ∀ m, s.tasks m ≤ s'.tasks m)
    (hkeep : Keeps s s') (hgates : s'.gates = s.gates)
    (hh : s'.held = s.held) : Moves net s s' (fun _ => False) where
  act := fun m _ _ ha => Or.inl (active_mono (hp m) (ht m) ha)
  buf := fun b _ _ => Or.inr (Or.inr ⟨isOpen_congr hgates b, fun _ h =>
    Nat.lt_of_lt_of_le h (hp b)⟩)
  feed := fun _ _ _ h => h.elim
  opened := fun _ _ _ _ h => h.elim
  key := fun _ _ _ _ _ hu => hkeep.used hu
  granted := fun _ _ _ _ h => h.elim
  join := fun _ _ _ _ => Or.inr (fun b _ h => Or.inl (by rw [hh]; exact h))
  stored := fun _ h => h.elim

/-- What working the gates of several buffers does. -/
structure Worked (net : Net) (opens : Bool) (bs : List Nat) (s s' : State) : Prop where
  tasks : s'.tasks = s.tasks
  held : s'.held = s.held
  checks : s'.checks = s.checks
  status : s'.status = s.status
  keys : s'.keys = s.keys
  dropping : s'.dropping = s.dropping
  made : s'.made = s.made
  gates : ∀ m, s'.gates m = if m ∈ bs then some opens else s.gates m
  le : ∀ m, s.pending m ≤ s'.pending m
  only : ∀ m, (∀ b, b ∈ bs → m ∉ listeners net b) → s'.pending m = s.pending m
  shut : opens = false → s'.pending = s.pending
  woken : opens = true → ∀ b, b ∈ bs → isOpen s b = false → ∀ m k, m ∈ listeners net b →
    net.ops.lookup m = some k → k ≠ .unused → s.pending m + 1 ≤ s'.pending m

theorem actGate_worked {net : Net} (opens : Bool) (s : State) (b : Nat) :
    Worked net opens [b] s (actGate net opens s b) := by
  have hgs : ∀ m, (if m = b then some opens else s.gates m) =
      if m ∈ [b] then some opens else s.gates m := fun m => by simp
  unfold actGate
  split
  · rename_i h
    simp only [Bool.and_eq_true, Bool.not_eq_true'] at h
    obtain ⟨rfl, hc⟩ := h
    have hg := giveAll_given (net := net) (listeners net b)
      { s with gates := fun m => if m = b then some true else s.gates m }
      (fun m hm => listeners_exist hm)
    exact
      { tasks := hg.tasks, held := hg.held, checks := hg.checks, status := hg.status
        keys := hg.keys, dropping := hg.dropping, made := hg.made
        gates := fun m => (congrFun hg.gates m).trans (hgs m)
        le := hg.le
        only := fun m hm => hg.only m (hm b (by simp))
        shut := fun h => by cases h
        woken := fun _ b' hb' _ m k hm hk hu => by
          have : b' = b := by simpa using hb'
          subst this
          exact hg.got m k hm hk hu }
  · rename_i h
    simp only [Bool.and_eq_true, Bool.not_eq_true', not_and, Bool.not_eq_false] at h
    exact
      { tasks := rfl, held := rfl, checks := rfl, status := rfl
        keys := rfl, dropping := rfl, made := rfl
        gates := hgs
        le := fun _ => Nat.le_refl _
        only := fun _ _ => rfl
        shut := fun _ => rfl
        woken := fun ho b' hb' hc => by
          have : b' = b := by simpa using hb'
          subst this
          rw [h ho] at hc
          cases hc }

theorem Worked.cons {net : Net} {opens : Bool} {b : Nat} {bs : List Nat} {s s' s'' : State}
    (h1 : Worked net opens [b] s s') (h2 : Worked net opens bs s' s'') :
    Worked net opens (b :: bs) s s'' :=
  { tasks := h2.tasks.trans h1.tasks
    held := h2.held.trans h1.held
    checks := h2.checks.trans h1.checks
    status := h2.status.trans h1.status
    keys := h2.keys.trans h1.keys
    dropping := h2.dropping.trans h1.dropping
    made := h2.made.trans h1.made
    gates := fun m => by
      rw [h2.gates m, h1.gates m]
      by_cases hm : m ∈ bs
      · simp [hm]
      · simp [hm]
    le := fun m => Nat.le_trans (h1.le m) (h2.le m)
    only := fun m hm => by
      rw [h2.only m (fun b' hb' => hm b' (by simp [hb'])),
        h1.only m (fun b' hb' => hm b' (by rw [List.mem_singleton.1 hb']; simp))]
    shut := fun h => (h2.shut h).trans (h1.shut h)
    woken := fun ho b' hb' hc m k hm hk hu => by
      by_cases hbb : b' = b
      · subst hbb
        exact Nat.le_trans (h1.woken ho b' (by simp) hc m k hm hk hu) (h2.le m)
      · have hb'' : b' ∈ bs := by
          rcases List.mem_cons.1 hb' with h | h
          · exact absurd h hbb
          · exact h
        have hc' : isOpen s' b' = false := by
          unfold isOpen
          rw [h1.gates b', if_neg (by simpa using hbb)]
          exact hc
        have := h2.woken ho b' hb'' hc' m k hm hk hu
        have := h1.le m
        omega }

theorem worked {net : Net} (opens : Bool) (bs : List Nat) (s : State) :
    Worked net opens bs s (bs.foldl (actGate net opens) s) := by
  induction bs generalizing s with
  | nil =>
    exact
      { tasks := rfl, held := rfl, checks := rfl, status := rfl
        keys := rfl, dropping := rfl, made := rfl
        gates := fun m => by simp
        le := fun _ => Nat.le_refl _
        only := fun _ _ => rfl
        shut := fun _ => rfl
        woken := fun _ b hb => by simp at hb }
  | cons b bs ih => exact (actGate_worked opens s b).cons (ih _)

/-- A message has been taken. -/
def taken (s : State) (n : Nat) : State := { s with pending := drop s.pending n }

theorem taken_le (s : State) (n m : Nat) (h : m ≠ n) : s.pending m ≤ (taken s n).pending m := by
  show s.pending m ≤ drop s.pending n m
  rw [drop_ne _ h]
  exact Nat.le_refl _

/-- One operation takes a message: a disposal is announced, or the session ends, or what the
operation had is passed on. -/
theorem execute_moves {net : Net} (hw : Wired net) (hpr : Private net) {s : State} {n : Nat}
    {k : Kind} (c : Choice) (hk : net.ops.lookup n = some k) :
    s.checks < (execute net (taken s n) n c k).checks ∨
      (execute net (taken s n) n c k).status ≠ .active ∨
      ((∃ D, Moves net s (execute net (taken s n) n c k) D ∧ ¬ D net.terminal) ∧
        (execute net (taken s n) n c k).checks = s.checks) := by
  have hmem := mem_of_lookup hk
  have htg : ∀ m, m ∈ k.targets → m ∈ net.ops.map (·.1) := hw.targets n k hmem
  have hnt : k ≠ .terminate → n ≠ net.terminal := by
    intro h he
    have h1 := lookup_of_mem hw.keys ((hw.terminal n).2 he)
    rw [hk] at h1
    exact h (Option.some.inj h1)
  have base : ∀ {s' : State} {ms : List Nat}, Given net (taken s n) s' ms →
      (∀ m, m ∈ k.targets → m ∈ ms) → k ≠ .terminate → (∀ cap, k ≠ .buffer cap) →
      (∀ l bs t, k ≠ .access l bs t) → (∀ o bs t, k ≠ .gate o bs t) →
      ∃ D, Moves net s s' D ∧ ¬ D net.terminal :=
    fun hg hall hne hb hac hga => ⟨_, moves_of_given hw hk (taken_le s n)
      (fun _ _ => Nat.le_refl _) (.same rfl rfl rfl) rfl hg hall (fun _ _ _ _ _ _ _ h => h)
      (fun cap hc => absurd hc (hb cap)) (fun l bs t hc => absurd hc (hac l bs t)) hga,
      fun h => hnt hne h.symm⟩
  have still : ∀ {s' : State}, (∀ m, m ≠ n → s.pending m ≤ s'.pending m) →
      (∀ m, s.tasks m ≤ s'.tasks m) → s'.held = s.held → s'.gates = s.gates → Keeps s s' →
      (active k s n → active k s' n) → (∀ cap, k ≠ .buffer cap) →
      Moves net s s' (fun _ => False) := by
    intro s' hp ht hh hgs hkeep hself hb
    exact
      { act := fun m k' hk' ha => by
          left
          by_cases hmn : m = n
          · subst hmn
            rw [hk] at hk'
            cases hk'
            exact hself ha
          · exact active_mono (hp m hmn) (ht m) ha
        buf := fun b cap hcap => by
          right; right
          have hbn : b ≠ n := by
            rintro rfl
            rw [hk] at hcap
            exact hb cap (Option.some.inj hcap)
          exact ⟨isOpen_congr hgs b, fun _ h => Nat.lt_of_lt_of_le h (hp b hbn)⟩
        feed := fun _ _ _ h => h.elim
        opened := fun _ _ _ _ h => h.elim
        key := fun _ _ _ _ _ hu => hkeep.used hu
        granted := fun _ _ _ _ h => h.elim
        join := fun _ _ _ _ => Or.inr (fun b _ h => Or.inl (by rw [hh]; exact h))
        stored := fun _ h => h.elim }
  cases k with
  | node async t ss =>
    cases async with
    | true =>
      right; right
      refine ⟨⟨_, still (taken_le s n) (fun m => bump_le _ _ _) rfl rfl (.same rfl rfl rfl)
        (fun _ => Or.inr ?_) (by simp), fun h => h⟩, rfl⟩
      show 0 < bump s.tasks n n
      rw [bump_self]
      omega
    | false =>
      have h1 := giveAll_given (net := net) (copies ss c) (taken s n)
        (fun m hm => htg m (by simp [Kind.targets, mem_copies hm]))
      cases hmiss : misses ss c with
      | true =>
        left
        simp only [execute, Bool.false_eq_true, if_false, hmiss, if_true]
        have h2 := give_given (net := net) (dispose (giveAll net (taken s n) (copies ss c)))
          (m := t) (htg t (by simp [Kind.targets]))
        rw [h2.checks]
        show s.checks < (giveAll net (taken s n) (copies ss c)).checks + 1
        rw [h1.checks]
        exact Nat.lt_succ_self _
      | false =>
        right; right
        have h2 := give_given (net := net) (giveAll net (taken s n) (copies ss c))
          (m := t) (htg t (by simp [Kind.targets]))
        have h3 := h1.trans h2
        have he : execute net (taken s n) n c (.node false t ss) =
            give net (giveAll net (taken s n) (copies ss c)) t := by
          simp only [execute, Bool.false_eq_true, if_false, hmiss]
        rw [he]
        refine ⟨base h3 ?_ (by simp) (by simp) (by simp) (by simp), h3.checks⟩
        intro m hm
        simp only [Kind.targets, List.mem_cons] at hm
        rcases hm with rfl | hm
        · simp
        · exact List.mem_append_left _ (copies_all hmiss hm)
  | fork ts =>
    right; right
    have h1 := giveAll_given (net := net) ts (taken s n) htg
    exact ⟨base h1 (fun m hm => hm) (by simp) (by simp) (by simp) (by simp), h1.checks⟩
  | branch a b =>
    left
    simp only [execute]
    split
    · have h1 := give_given (net := net) (taken s n) (m := a) (htg a (by simp [Kind.targets]))
      show s.checks < (give net (taken s n) a).checks + 1
      rw [h1.checks]
      exact Nat.lt_succ_self _
    · have h1 := give_given (net := net) (dispose (taken s n)) (m := b)
        (htg b (by simp [Kind.targets]))
      rw [h1.checks]
      exact Nat.lt_succ_self _
  | filter t =>
    simp only [execute]
    split
    · left; exact Nat.lt_succ_self _
    · right; right
      have h1 := give_given (net := net) (taken s n) (m := t) (htg t (by simp [Kind.targets]))
      exact ⟨base h1 (fun m hm => hm) (by simp) (by simp) (by simp) (by simp), h1.checks⟩
  | spread t =>
    have h1 := giveAll_given (net := net) (List.replicate (c.headD 0) t) (taken s n)
      (fun m hm => htg m (by simp [Kind.targets, (List.mem_replicate.1 hm).2]))
    simp only [execute]
    split
    · left
      show s.checks < (giveAll net (taken s n) (List.replicate (c.headD 0) t)).checks + 1
      rw [h1.checks]
      exact Nat.lt_succ_self _
    · rename_i h0
      right; right
      refine ⟨base h1 ?_ (by simp) (by simp) (by simp) (by simp), h1.checks⟩
      intro m hm
      have : m = t := by simpa [Kind.targets] using hm
      exact List.mem_replicate.2 ⟨h0, this⟩
  | split ts =>
    have h1 := giveAll_given (net := net) (copies ts c) (taken s n)
      (fun m hm => htg m (by simpa [Kind.targets] using mem_copies hm))
    simp only [execute]
    cases hmiss : misses ts c with
    | true =>
      left
      show s.checks < (giveAll net (taken s n) (copies ts c)).checks + 1
      rw [h1.checks]
      exact Nat.lt_succ_self _
    | false =>
      right; right
      exact ⟨base h1 (fun m hm => copies_all hmiss hm) (by simp) (by simp) (by simp) (by simp),
        h1.checks⟩
  | buffer cap =>
    right; right
    have hpos : ∀ v, 0 < push cap v := push_pos (fun h => hpr.room n (by rw [h] at hmem; exact hmem))
    let s0 : State := { taken s n with
      held := fun m => if m = n then push cap ((taken s n).held m) else (taken s n).held m }
    have hself : s0.held n = push cap (s.held n) := by simp [s0, taken]
    have hother : ∀ m, m ≠ n → s0.held m = s.held m := fun m hm => by simp [s0, taken, hm]
    have hheld : ∀ m, 0 < s.held m → 0 < s0.held m := by
      intro m h0
      by_cases hmn : m = n
      · rw [hmn, hself]; exact hpos _
      · rw [hother _ hmn]; exact h0
    cases ho : isOpen (taken s n) n with
    | true =>
      have h1 : Given net s0 (giveAll net s0 (listeners net n)) (listeners net n) :=
        giveAll_given _ _ (fun m hm => listeners_exist hm)
      have he : execute net (taken s n) n c (.buffer cap) =
          giveAll net s0 (listeners net n) := by
        simp only [execute, ho, if_true]
        rfl
      rw [he]
      refine ⟨⟨_, moves_of_given (s0 := s0) hw hk (taken_le s n) (fun _ _ => Nat.le_refl _)
        (.same rfl rfl rfl) rfl h1 ?_ ?_ ?_ (by simp) (by simp),
        fun h => hnt (by simp) h.symm⟩, h1.checks⟩
      · intro m hm; simp [Kind.targets] at hm
      · intro j bs t hj _ b hb h0; exact hheld _ h0
      · intro _ _; exact ⟨by rw [hself]; exact hpos _, fun m hm => hm⟩
    | false =>
      have he : execute net (taken s n) n c (.buffer cap) = s0 := by
        simp only [execute, ho, Bool.false_eq_true, if_false]
        rfl
      rw [he]
      refine ⟨⟨fun _ => False, ?_, fun h => h⟩, rfl⟩
      exact
        { act := fun m k' hk' ha => by
            left
            by_cases hmn : m = n
            · subst hmn
              rw [hk] at hk'
              cases hk'
              exact absurd ha (by simp [active])
            · exact active_mono (taken_le s n m hmn) (Nat.le_refl _) ha
          buf := fun b cap' hcap => by
            right; right
            refine ⟨rfl, fun hopen h => ?_⟩
            have hbn : b ≠ n := by
              rintro rfl
              have : isOpen (taken s b) b = isOpen s b := rfl
              rw [this, hopen] at ho
              cases ho
            exact Nat.lt_of_lt_of_le h (taken_le s n b hbn)
          feed := fun _ _ _ h => h.elim
          opened := fun _ _ _ _ h => h.elim
          key := fun _ _ _ _ _ hu => hu
          granted := fun _ _ _ _ h => h.elim
          join := fun _ _ _ _ => Or.inr (fun b _ h => Or.inl (hheld _ h))
          stored := fun _ h => h.elim }
  | join bs t =>
    right; right
    cases hr : ready (taken s n).held bs with
    | false =>
      have he : execute net (taken s n) n c (.join bs t) = taken s n := by
        simp only [execute, hr, Bool.false_eq_true, if_false]
      rw [he]
      exact ⟨⟨_, still (taken_le s n) (fun _ => Nat.le_refl _) rfl rfl (.same rfl rfl rfl)
        (fun h => absurd h (by simp [active])) (by simp), fun h => h⟩, rfl⟩
    | true =>
      let s0 : State := { taken s n with held := fetch (taken s n).held bs }
      have he : execute net (taken s n) n c (.join bs t) = give net s0 t := by
        simp only [execute, hr, if_true]
        rfl
      rw [he]
      have h1 := give_given (net := net) s0 (m := t) (htg t (by simp [Kind.targets]))
      refine ⟨⟨_, moves_of_given (s0 := s0) hw hk (taken_le s n) (fun _ _ => Nat.le_refl _)
        (.same rfl rfl rfl) rfl h1 ?_ ?_ (by simp) (by simp) (by simp),
        fun h => hnt (by simp) h.symm⟩, h1.checks⟩
      · intro m hm; simpa [Kind.targets] using hm
      · intro j bs' t' hj hjn b hb h0
        have hno : b.1 ∉ bs.map (·.1) :=
          hpr.own j bs' t' n bs t (mem_of_lookup hj) hmem hjn b.1
            (List.mem_map_of_mem (f := (·.1)) hb)
        show 0 < fetch s.held bs b.1
        rw [fetch_other _ _ hno]
        exact h0
  | scope t ss =>
    right; right
    refine ⟨⟨_, still (taken_le s n) (fun m => bump_le _ _ _) rfl rfl (.same rfl rfl rfl)
      (fun _ => Or.inr ?_) (by simp), fun h => h⟩, rfl⟩
    show 0 < bump s.tasks n n
    rw [bump_self]
    omega
  | access l bs t =>
    right; right
    let s0 : State := { taken s n with
      keys := fun m => if m = n then (taken s n).keys m + bs.length else (taken s n).keys m
      made := fun m => m = n || (taken s n).made m }
    have h1 := give_given (net := net) s0 (m := t) (htg t (by simp [Kind.targets]))
    show (∃ D, Moves net s (give net s0 t) D ∧ _) ∧ (give net s0 t).checks = _
    refine ⟨⟨_, moves_of_given (s0 := s0) hw hk (taken_le s n) (fun _ _ => Nat.le_refl _)
      ⟨fun m => ?_, fun _ => Nat.le_refl _, fun m hm => ?_⟩ rfl h1 (fun m hm => hm)
      (fun _ _ _ _ _ _ _ h => h) (by simp) ?_ (by simp), fun h => hnt (by simp) h.symm⟩,
      h1.checks⟩
    · show s.keys m ≤ if m = n then s.keys m + bs.length else s.keys m
      split <;> omega
    · show (decide (m = n) || s.made m) = true
      simp [hm]
    · rintro l' bs' t' he
      cases he
      have hpos : 0 < bs.length := List.length_pos_iff.2 (hw.accesses n l bs t hmem).1
      have : 0 < s0.keys n := by
        show 0 < if n = n then s.keys n + bs.length else s.keys n
        rw [if_pos rfl]
        omega
      simp [used, this]
  | gate opens bs t =>
    have h1 := worked (net := net) opens bs (taken s n)
    have h2 := give_given (net := net) (bs.foldl (actGate net opens) (taken s n)) (m := t)
      (htg t (by simp [Kind.targets]))
    cases opens with
    | false =>
      left
      show s.checks < (give net (bs.foldl (actGate net false) (taken s n)) t).checks + 1
      rw [h2.checks, h1.checks]
      exact Nat.lt_succ_self _
    | true =>
      right; right
      have he : execute net (taken s n) n c (.gate true bs t) =
          give net (bs.foldl (actGate net true) (taken s n)) t := rfl
      rw [he]
      have hle : ∀ m, m ≠ n → s.pending m ≤
          (give net (bs.foldl (actGate net true) (taken s n)) t).pending m := fun m hm =>
        Nat.le_trans (taken_le s n m hm) (Nat.le_trans (h1.le m) (h2.le m))
      have hgs : ∀ m, (give net (bs.foldl (actGate net true) (taken s n)) t).gates m =
          if m ∈ bs then some true else s.gates m := fun m => by
        rw [h2.gates]; exact h1.gates m
      have hbuf : ∀ b, b ∈ bs → ∃ cap, net.ops.lookup b = some (.buffer cap) := fun b hb => by
        obtain ⟨cap, hc⟩ := hw.gates n true bs t hmem b hb
        exact ⟨cap, lookup_of_mem hw.keys hc⟩
      refine ⟨⟨fun m => m = n ∨ (m ∈ bs ∧ isOpen s m = false), ?_, ?_⟩,
        h2.checks.trans h1.checks⟩
      · exact
          { act := fun m k' hk' ha => by
              by_cases hmn : m = n
              · exact Or.inr (Or.inl hmn)
              · left
                refine active_mono (hle m hmn) ?_ ha
                rw [h2.tasks, h1.tasks]
                exact Nat.le_refl _
            buf := fun b cap hcap => by
              right
              have hbn : b ≠ n := by
                rintro rfl
                rw [hk] at hcap
                cases hcap
              by_cases hb : b ∈ bs ∧ isOpen s b = false
              · exact Or.inl (Or.inr hb)
              · right
                refine ⟨?_, fun _ h => Nat.lt_of_lt_of_le h (hle b hbn)⟩
                unfold isOpen
                rw [hgs b]
                by_cases hm : b ∈ bs
                · rw [if_pos hm]
                  have : isOpen s b = true := by
                    cases h : isOpen s b with
                    | true => rfl
                    | false => exact absurd ⟨hm, h⟩ hb
                  exact this.symm
                · rw [if_neg hm]
            feed := by
              rintro x m k' (rfl | ⟨hx, hxc⟩) hi hk' hu
              · have := hw.sent hk (by simp) hi
                have := h2.got m k' (by simpa [Kind.targets] using this) hk' hu
                omega
              · have := h1.woken rfl x hx hxc m k' (hw.listened (hbuf x hx) hi hk').1 hk' hu
                have := h2.le m
                omega
            opened := by
              rintro g b bs' t' (rfl | ⟨hx, _⟩) hg' hb hc
              · rw [hk] at hg'
                cases hg'
                exact Or.inr ⟨hb, hc⟩
              · obtain ⟨cap, hcap⟩ := hbuf g hx
                rw [hg'] at hcap
                cases hcap
            key := fun a l' bs' t' _ hu =>
              (Keeps.trans (.same h1.keys h1.dropping h1.made) h2.keeps : Keeps s _).used hu
            granted := by
              rintro a l' bs' t' (rfl | ⟨hx, _⟩) ha
              · rw [hk] at ha
                cases ha
              · obtain ⟨cap, hcap⟩ := hbuf a hx
                rw [ha] at hcap
                cases hcap
            join := fun j bs' t' hj => Or.inr (fun b hb h0 => by
              left
              rw [h2.held, h1.held]
              exact h0)
            stored := by
              rintro b (rfl | ⟨hx, _⟩) hj
              · obtain ⟨j, bs', t', hj, hb⟩ := hj
                obtain ⟨b', hb', rfl⟩ := List.mem_map.1 hb
                obtain ⟨cap, hc⟩ := (hw.joins j bs' t' hj).2.2 b' hb'
                rw [lookup_of_mem hw.keys hc] at hk
                cases hk
              · exact absurd hj (hpr.ungated n true bs t hmem b hx) }
      · rintro (h | ⟨hx, _⟩)
        · exact hnt (by simp) h.symm
        · obtain ⟨cap, hc⟩ := hbuf _ hx
          rw [lookup_of_mem hw.keys ((hw.terminal _).2 rfl)] at hc
          cases hc
  | cancel => right; left; simp [execute]
  | terminate => right; left; simp [execute]
  | unused =>
    right; right
    exact ⟨base (Given.nil net _) (fun m hm => by simp [Kind.targets] at hm) (by simp) (by simp)
      (by simp) (by simp), rfl⟩

/-! ### Notifications -/

theorem Notified.more {net : Net} {s s' : State} (h : Notified net s)
    (hp : ∀ j bs t, net.ops.lookup j = some (.join bs t) → s.pending j ≤ s'.pending j)
    (hh : ∀ m, s'.held m ≤ s.held m) : Notified net s' := by
  intro j bs t hj
  obtain ⟨b, hb, hle⟩ := h j bs t hj
  exact ⟨b, hb, Nat.le_trans (hh b.1) (Nat.le_trans hle (hp j _ _ hj))⟩

/-- What an operation other than a buffer or a join does. -/
theorem execute_plain {net : Net} (hw : Wired net) {s : State} {n : Nat} {k : Kind} (c : Choice)
    (hk : net.ops.lookup n = some k) (hb : ∀ cap, k ≠ .buffer cap) (hj : ∀ bs t, k ≠ .join bs t) :
    (execute net s n c k).held = s.held ∧ ∀ m, s.pending m ≤ (execute net s n c k).pending m := by
  have htg : ∀ m, m ∈ k.targets → m ∈ net.ops.map (·.1) := hw.targets n k (mem_of_lookup hk)
  cases k with
  | node async t ss =>
    cases async with
    | true => exact ⟨rfl, fun _ => Nat.le_refl _⟩
    | false =>
      have h1 := giveAll_given (net := net) (copies ss c) s
        (fun m hm => htg m (by simp [Kind.targets, mem_copies hm]))
      simp only [execute, Bool.false_eq_true, if_false]
      split
      · have h2 := give_given (net := net) (dispose (giveAll net s (copies ss c)))
          (m := t) (htg t (by simp [Kind.targets]))
        exact ⟨h2.held.trans h1.held, fun m => Nat.le_trans (h1.le m) (h2.le m)⟩
      · have h2 := give_given (net := net) (giveAll net s (copies ss c))
          (m := t) (htg t (by simp [Kind.targets]))
        exact ⟨h2.held.trans h1.held, fun m => Nat.le_trans (h1.le m) (h2.le m)⟩
  | fork ts =>
    have h1 := giveAll_given (net := net) ts s htg
    exact ⟨h1.held, h1.le⟩
  | branch a b =>
    simp only [execute]
    split
    · have h1 := give_given (net := net) s (m := a) (htg a (by simp [Kind.targets]))
      exact ⟨h1.held, h1.le⟩
    · have h1 := give_given (net := net) (dispose s) (m := b) (htg b (by simp [Kind.targets]))
      exact ⟨h1.held, h1.le⟩
  | filter t =>
    simp only [execute]
    split
    · exact ⟨rfl, fun _ => Nat.le_refl _⟩
    · have h1 := give_given (net := net) s (m := t) (htg t (by simp [Kind.targets]))
      exact ⟨h1.held, h1.le⟩
  | spread t =>
    have h1 := giveAll_given (net := net) (List.replicate (c.headD 0) t) s
      (fun m hm => htg m (by simp [Kind.targets, (List.mem_replicate.1 hm).2]))
    simp only [execute]
    split
    · exact ⟨h1.held, h1.le⟩
    · exact ⟨h1.held, h1.le⟩
  | split ts =>
    have h1 := giveAll_given (net := net) (copies ts c) s
      (fun m hm => htg m (by simpa [Kind.targets] using mem_copies hm))
    simp only [execute]
    split
    · exact ⟨h1.held, h1.le⟩
    · exact ⟨h1.held, h1.le⟩
  | buffer cap => exact absurd rfl (hb cap)
  | join bs t => exact absurd rfl (hj bs t)
  | scope t ss => exact ⟨rfl, fun _ => Nat.le_refl _⟩
  | access l bs t =>
    have h1 := give_given (net := net) { s with
      keys := fun m => if m = n then s.keys m + bs.length else s.keys m
      made := fun m => m = n || s.made m } (m := t) (htg t (by simp [Kind.targets]))
    exact ⟨h1.held, h1.le⟩
  | gate opens bs t =>
    have h1 := worked (net := net) opens bs s
    have h2 := give_given (net := net) (bs.foldl (actGate net opens) s) (m := t)
      (htg t (by simp [Kind.targets]))
    simp only [execute]
    split
    · exact ⟨h2.held.trans h1.held, fun m => Nat.le_trans (h1.le m) (h2.le m)⟩
    · exact ⟨h2.held.trans h1.held, fun m => Nat.le_trans (h1.le m) (h2.le m)⟩
  | cancel => exact ⟨rfl, fun _ => Nat.le_refl _⟩
  | terminate => exact ⟨rfl, fun _ => Nat.le_refl _⟩
  | unused => exact ⟨rfl, fun _ => Nat.le_refl _⟩

/-- Operations leave the keys that are being dropped alone, and only gate operations work gates. -/
theorem execute_side {net : Net} (hw : Wired net) {s : State} {n : Nat} {k : Kind} (c : Choice)
    (hk : net.ops.lookup n = some k) :
    (execute net s n c k).dropping = s.dropping ∧
      ∀ m, (∀ o bs t, k = .gate o bs t → m ∉ bs) →
        (execute net s n c k).gates m = s.gates m := by
  have htg : ∀ m, m ∈ k.targets → m ∈ net.ops.map (·.1) := hw.targets n k (mem_of_lookup hk)
  have of : ∀ {s0 s' : State} {ms : List Nat}, Given net s0 s' ms → s0.dropping = s.dropping →
      s0.gates = s.gates → s'.dropping = s.dropping ∧
      ∀ m, (∀ o bs t, k = .gate o bs t → m ∉ bs) → s'.gates m = s.gates m := by
    intro s0 s' ms hg h1 h2
    exact ⟨hg.dropping.trans h1, fun m _ => by rw [hg.gates, h2]⟩
  cases k with
  | node async t ss =>
    cases async with
    | true => exact ⟨rfl, fun _ _ => rfl⟩
    | false =>
      have h1 := giveAll_given (net := net) (copies ss c) s
        (fun m hm => htg m (by simp [Kind.targets, mem_copies hm]))
      simp only [execute, Bool.false_eq_true, if_false]
      split
      · exact of (give_given (net := net) (dispose (giveAll net s (copies ss c)))
          (m := t) (htg t (by simp [Kind.targets]))) h1.dropping h1.gates
      · exact of (give_given (net := net) (giveAll net s (copies ss c))
          (m := t) (htg t (by simp [Kind.targets]))) h1.dropping h1.gates
  | fork ts => exact of (giveAll_given (net := net) ts s htg) rfl rfl
  | branch a b =>
    simp only [execute]
    split
    · have h1 := give_given (net := net) s (m := a) (htg a (by simp [Kind.targets]))
      exact ⟨h1.dropping, fun m _ => congrFun h1.gates m⟩
    · exact of (give_given (net := net) (dispose s) (m := b) (htg b (by simp [Kind.targets])))
        rfl rfl
  | filter t =>
    simp only [execute]
    split
    · exact ⟨rfl, fun _ _ => rfl⟩
    · exact of (give_given (net := net) s (m := t) (htg t (by simp [Kind.targets]))) rfl rfl
  | spread t =>
    have h1 := giveAll_given (net := net) (List.replicate (c.headD 0) t) s
      (fun m hm => htg m (by simp [Kind.targets, (List.mem_replicate.1 hm).2]))
    simp only [execute]
    split
    · exact ⟨h1.dropping, fun m _ => congrFun h1.gates m⟩
    · exact of h1 rfl rfl
  | split ts =>
    have h1 := giveAll_given (net := net) (copies ts c) s
      (fun m hm => htg m (by simpa [Kind.targets] using mem_copies hm))
    simp only [execute]
    split
    · exact ⟨h1.dropping, fun m _ => congrFun h1.gates m⟩
    · exact of h1 rfl rfl
  | buffer cap =>
    simp only [execute]
    split
    · exact of (s0 := { s with held := fun m => if m = n then push cap (s.held m) else s.held m })
        (giveAll_given (net := net) (listeners net n) _ (fun m hm => listeners_exist hm)) rfl rfl
    · exact ⟨rfl, fun _ _ => rfl⟩
  | join bs t =>
    simp only [execute]
    split
    · exact of (s0 := { s with held := fetch s.held bs })
        (give_given (net := net) _ (m := t) (htg t (by simp [Kind.targets]))) rfl rfl
    · exact ⟨rfl, fun _ _ => rfl⟩
  | scope t ss => exact ⟨rfl, fun _ _ => rfl⟩
  | access l bs t =>
    exact of (s0 := { s with
      keys := fun m => if m = n then s.keys m + bs.length else s.keys m
      made := fun m => m = n || s.made m })
      (give_given (net := net) _ (m := t) (htg t (by simp [Kind.targets]))) rfl rfl
  | gate opens bs t =>
    have h1 := worked (net := net) opens bs s
    have h2 := give_given (net := net) (bs.foldl (actGate net opens) s) (m := t)
      (htg t (by simp [Kind.targets]))
    have h3 : ∀ m, m ∉ bs → (give net (bs.foldl (actGate net opens) s) t).gates m = s.gates m := by
      intro m hm
      rw [h2.gates, h1.gates m, if_neg hm]
    simp only [execute]
    split
    · exact ⟨h2.dropping.trans h1.dropping, fun m hm => h3 m (hm opens bs t rfl)⟩
    · exact ⟨h2.dropping.trans h1.dropping, fun m hm => h3 m (hm opens bs t rfl)⟩
  | cancel => exact ⟨rfl, fun _ _ => rfl⟩
  | terminate => exact ⟨rfl, fun _ _ => rfl⟩
  | unused => exact ⟨rfl, fun _ _ => rfl⟩

theorem JoinsOpen.execute {net : Net} (hw : Wired net) (hu : JoinsUngated net) {s : State}
    (h : JoinsOpen net s) {n : Nat} {k : Kind} (c : Choice) (hk : net.ops.lookup n = some k) :
    JoinsOpen net (execute net s n c k) := by
  intro b hb
  rw [(execute_side hw c hk).2 b ?_]
  · exact h b hb
  · rintro o bs t rfl hm
    exact hu n o bs t (mem_of_lookup hk) b hm hb

theorem execute_notified {net : Net} (hw : Wired net) (hpr : Private net) {s : State} {n : Nat}
    {k : Kind} (c : Choice) (hk : net.ops.lookup n = some k) (hopen : JoinsOpen net s)
    (h : Notified net s) :
    Notified net (execute net (taken s n) n c k) := by
  have hmem := mem_of_lookup hk
  by_cases hb : ∃ cap, k = .buffer cap
  · obtain ⟨cap, rfl⟩ := hb
    let s0 : State := { taken s n with
      held := fun m => if m = n then push cap ((taken s n).held m) else (taken s n).held m }
    have h1 : ∃ ms, Given net s0 (execute net (taken s n) n c (.buffer cap)) ms ∧
        (isOpen s n = true → ms = listeners net n) := by
      cases ho : isOpen (taken s n) n with
      | true =>
        refine ⟨listeners net n, ?_, fun _ => rfl⟩
        have he : execute net (taken s n) n c (.buffer cap) = giveAll net s0 (listeners net n) := by
          simp only [execute, ho, if_true]
          rfl
        rw [he]
        exact giveAll_given _ _ (fun m hm => listeners_exist hm)
      | false =>
        have he : execute net (taken s n) n c (.buffer cap) = s0 := by
          simp only [execute, ho, Bool.false_eq_true, if_false]
          rfl
        rw [he]
        refine ⟨[], Given.nil net s0, fun h => ?_⟩
        have : isOpen (taken s n) n = isOpen s n := rfl
        rw [this, h] at ho
        cases ho
    obtain ⟨ms, h1, hms⟩ := h1
    intro j bs t hj
    obtain ⟨b, hbm, hle⟩ := h j bs t hj
    refine ⟨b, hbm, ?_⟩
    rw [h1.held]
    have hjn : j ≠ n := by
      intro he
      rw [he, hk] at hj
      simp at hj
    have hpj : s0.pending j = s.pending j := drop_ne _ hjn
    by_cases hbn : b.1 = n
    · have hjoined : Joined net n := ⟨j, bs, t, mem_of_lookup hj, List.mem_map.2 ⟨b, hbm, hbn⟩⟩
      have hms := hms (by unfold isOpen; rw [hopen n hjoined]; rfl)
      have hl : j ∈ ms := by
        rw [hms]
        exact mem_listeners.2 (Or.inl ⟨bs, t, mem_of_lookup hj, List.mem_map.2 ⟨b, hbm, hbn⟩⟩)
      have hg := h1.got j _ hl hj (by simp)
      have hs : s0.held b.1 = push cap (s.held b.1) := by simp [s0, taken, hbn]
      have := push_le cap (s.held b.1)
      omega
    · have hs : s0.held b.1 = s.held b.1 := by simp [s0, taken, hbn]
      have := h1.le j
      omega
  · by_cases hjo : ∃ bs t, k = .join bs t
    · obtain ⟨bs, t, rfl⟩ := hjo
      cases hr : ready (taken s n).held bs with
      | false =>
        have he : execute net (taken s n) n c (.join bs t) = taken s n := by
          simp only [execute, hr, Bool.false_eq_true, if_false]
        rw [he]
        intro j bs' t' hj
        by_cases hjn : j = n
        · subst hjn
          rw [hk] at hj
          cases hj
          have hne := (hw.joins j bs t hmem).1
          have : ¬ ∀ b, b ∈ bs → 0 < (taken s j).held b.1 := by
            intro hall
            rw [ready_iff.2 ⟨hne, hall⟩] at hr
            cases hr
          obtain ⟨b, hb'⟩ := Classical.not_forall.1 this
          obtain ⟨hbm, hz⟩ := Classical.not_imp.1 hb'
          exact ⟨b, hbm, by omega⟩
        · obtain ⟨b, hbm, hle⟩ := h j bs' t' hj
          refine ⟨b, hbm, ?_⟩
          show s.held b.1 ≤ drop s.pending n j
          rw [drop_ne _ hjn]
          exact hle
      | true =>
        let s0 : State := { taken s n with held := fetch (taken s n).held bs }
        have he : execute net (taken s n) n c (.join bs t) = give net s0 t := by
          simp only [execute, hr, if_true]
          rfl
        rw [he]
        have h1 := give_given (net := net) s0 (m := t)
          (hw.targets n _ hmem t (by simp [Kind.targets]))
        intro j bs' t' hj
        obtain ⟨b, hbm, hle⟩ := h j bs' t' hj
        refine ⟨b, hbm, ?_⟩
        rw [h1.held]
        refine Nat.le_trans ?_ (h1.le j)
        show fetch s.held bs b.1 ≤ drop s.pending n j
        by_cases hjn : j = n
        · subst hjn
          rw [hk] at hj
          cases hj
          have := fetch_pull s.held bs hbm (hpr.pulls j bs t hmem b hbm)
          rw [drop_self]
          omega
        · rw [drop_ne _ hjn]
          exact Nat.le_trans (fetch_le _ _ _) hle
    · have hplain := execute_plain hw (s := taken s n) c hk (fun cap hc => hb ⟨cap, hc⟩)
        (fun bs t hc => hjo ⟨bs, t, hc⟩)
      refine h.more ?_ ?_
      · intro j bs t hj
        have hjn : j ≠ n := by
          intro he
          rw [he, hk] at hj
          exact hjo ⟨bs, t, Option.some.inj hj⟩
        exact Nat.le_trans (taken_le s n j hjn) (hplain.2 j)
      · intro m
        rw [hplain.1]
        exact Nat.le_refl _

/-! ### Keys -/

/-- After somebody with a key has changed buffer `b`. -/
theorem moves_of_key {net : Net} {s s' : State} {n b : Nat} {cap : Option Nat} {l : Bool}
    {bs : List Nat} {t : Nat} (hb : net.ops.lookup b = some (.buffer cap))
    (ha : net.ops.lookup n = some (.access l bs t)) (hmem : b ∈ bs) (hu : used s n bs = true)
    (hp : ∀ m, s.pending m ≤ s'.pending m) (ht : s'.tasks = s.tasks) (hkeep : Keeps s s')
    (hh : ∀ m, m ≠ b → s'.held m = s.held m) (hg : ∀ m, m ≠ b → s'.gates m = s.gates m) :
    Moves net s s' (fun _ => False) := by
  have hw : Will net s' b := .key hb ha hmem (hkeep.used hu)
  exact
    { act := fun m _ _ ha => Or.inl (active_mono (hp m) (by rw [ht]; exact Nat.le_refl _) ha)
      buf := fun b' _ _ => by
        by_cases hbb : b' = b
        · rw [hbb]; exact Or.inl hw
        · right; right
          refine ⟨?_, fun _ h => Nat.lt_of_lt_of_le h (hp b')⟩
          unfold isOpen
          rw [hg b' hbb]
      feed := fun _ _ _ h => h.elim
      opened := fun _ _ _ _ h => h.elim
      key := fun _ _ _ _ _ hu => hkeep.used hu
      granted := fun _ _ _ _ h => h.elim
      join := fun j bs' t' _ => Or.inr (fun b' _ h0 => by
        by_cases hbb : b'.1 = b
        · rw [hbb]; exact Or.inr hw
        · left
          rw [hh _ hbb]
          exact h0)
      stored := fun _ h => h.elim }

theorem wake_given {net : Net} (s : State) (n b : Nat) (loops : Bool) :
    ∃ ms, Given net s (wake net s n b loops) ms ∧ (∀ m, m ∈ ms → m ∈ listeners net b) ∧
      (ms ≠ [] → isOpen s b = true) ∧
      (isOpen s b = true → ∀ m, m ∈ listeners net b → m ≠ n → m ∈ ms) := by
  unfold wake
  cases ho : isOpen s b with
  | true =>
    refine ⟨(listeners net b).filter fun m => loops || m ≠ n, ?_, ?_, fun _ => rfl, ?_⟩
    · rw [if_pos rfl]
      exact giveAll_given _ _ (fun m hm => listeners_exist (List.mem_filter.1 hm).1)
    · intro m hm; exact (List.mem_filter.1 hm).1
    · intro _ m hm hn
      exact List.mem_filter.2 ⟨hm, by simp [hn]⟩
  | false =>
    refine ⟨[], ?_, fun m hm => by simp at hm, fun h => absurd rfl h, fun h => by cases h⟩
    rw [if_neg (by simp)]
    exact Given.nil net s

theorem hasKey_iff {net : Net} {s : State} {n b : Nat} (h : hasKey net s n b = true) :
    ∃ l bs t, net.ops.lookup n = some (.access l bs t) ∧ b ∈ bs ∧ used s n bs = true := by
  unfold hasKey at h
  split at h
  · rename_i l bs t hk
    simp only [Bool.and_eq_true, decide_eq_true_eq, List.contains_iff_mem] at h
    exact ⟨l, bs, t, hk, h.2, by simp [used, h.1]⟩
  · cases h

/-! ### The invariant -/

/-- While the session runs: a disposal is announced or something may still come to the terminal,
joins have been notified, their gates are open, and no key is being dropped unseen. -/
structure Going (net : Net) (s : State) : Prop where
  live : 0 < s.checks ∨ Will net s net.terminal
  notified : Notified net s
  opened : JoinsOpen net s
  drops : ∀ n, s.dropping n = 0

/-- The world does not depend on the disposals. -/
theorem world_congr {net : Net} {s s' : State} (hp : s'.pending = s.pending)
    (ht : s'.tasks = s.tasks) (hh : s'.held = s.held) (hk : s'.keys = s.keys)
    (hd : s'.dropping = s.dropping) (hm : s'.made = s.made) (hg : s'.gates = s.gates) :
    world net s' = world net s := by
  have hacc : ∀ b, accessors net s' b = accessors net s b := by
    intro b
    have : used s' = used s := by
      funext n bs
      simp only [used, hk, hd, hm]
    simp only [accessors, this]
  have hopen : ∀ b, isOpen s' b = isOpen s b := fun b => isOpen_congr hg b
  unfold world
  refine List.map_congr_left ?_
  intro e _
  cases e.2 <;> simp only [look, hp, ht, hh, hacc, hopen]

theorem Going.moves {net : Net} {s s' : State} (h : Going net s)
    (hm : ∃ D, Moves net s s' D ∧ ¬ D net.terminal) (hc : s'.checks = s.checks)
    (hnot : Notified net s') (hopen : JoinsOpen net s') (hd : ∀ n, s'.dropping n = 0) :
    Going net s' := by
  refine ⟨?_, hnot, hopen, hd⟩
  obtain ⟨D, hm, hn⟩ := hm
  rcases h.live with h0 | h0
  · exact Or.inl (by omega)
  · rcases hm.will h0 with h1 | h1
    · exact Or.inr h1
    · exact absurd h1 hn

theorem validate_going {net : Net} (hw : Wired net) {s : State} (hn : Notified net s)
    (hopen : JoinsOpen net s) (hd : ∀ n, s.dropping n = 0)
    (ha : (validate net s).status = .active) : Going net (validate net s) := by
  obtain ⟨k, hk⟩ := lookup_of_key (List.mem_map_of_mem (f := (·.1)) ((hw.terminal _).2 rfl))
  obtain ⟨b, hb⟩ := Graph.C14_answers (world net s) 0 net.terminal (hw.sane s)
    (by rw [world_of s hk]; simp)
  cases b with
  | true =>
    have he : validate net s = s := by simp only [validate, hb]
    rw [he]
    exact ⟨Or.inr (will_of_live hw.keys (Graph.C14_sound _ _ _ hb)), hn, hopen, hd⟩
  | false =>
    have he : (validate net s).status = .cancelled := by simp only [validate, hb]
    rw [he] at ha
    cases ha

theorem start_going {net : Net} (hw : Wired net) (ha : (start net).status = .active) :
    Going net (start net) := by
  have hg := give_given (net := net) blank hw.entry
  refine validate_going hw ?_ ?_ ?_ ha
  · intro j bs t hj
    cases bs with
    | nil => exact absurd rfl (hw.joins j [] t (mem_of_lookup hj)).1
    | cons b bs =>
      refine ⟨b, by simp, ?_⟩
      show (received net).held b.1 ≤ _
      unfold received
      rw [hg.held]
      exact Nat.zero_le _
  · intro b _
    exact congrFun hg.gates b
  · intro n
    exact congrFun hg.dropping n

theorem step_going {net : Net} (hw : Wired net) (hpr : Private net) {s : State} (e : Ev)
    (he : Calm net e) (hact : s.status = .active) (h : Going net s)
    (ha : (step net s e).status = .active) : Going net (step net s e) := by
  have notTerm : ∀ {n k}, net.ops.lookup n = some k → k ≠ .terminate → n ≠ net.terminal := by
    intro n k hk hne he
    have h1 := lookup_of_mem hw.keys ((hw.terminal n).2 he)
    rw [hk] at h1
    exact hne (Option.some.inj h1)
  unfold step at ha ⊢
  rw [if_neg (show ¬ s.status ≠ .active from fun h => h hact)] at ha ⊢
  cases e with
  | exec n c =>
    simp only at ha ⊢
    cases hk : net.ops.lookup n with
    | none => exact h
    | some k =>
      simp only [hk] at ha ⊢
      by_cases h0 : s.pending n = 0
      · rw [if_pos h0]; exact h
      · rw [if_neg h0] at ha ⊢
        have hnot := execute_notified hw hpr c hk h.opened h.notified
        have hopen : JoinsOpen net (execute net (taken s n) n c k) :=
          JoinsOpen.execute hw hpr.ungated (s := taken s n) h.opened c hk
        have hd : ∀ m, (execute net (taken s n) n c k).dropping m = 0 := fun m => by
          rw [(execute_side hw c hk).1]; exact h.drops m
        rcases execute_moves hw hpr (s := s) c hk with h1 | h1 | ⟨hm, hc⟩
        · exact ⟨Or.inl (Nat.lt_of_le_of_lt (Nat.zero_le _) h1), hnot, hopen, hd⟩
        · exact absurd ha h1
        · exact h.moves hm hc hnot hopen hd
  | item n i =>
    simp only at ha ⊢
    cases hk : net.ops.lookup n with
    | none => exact h
    | some k =>
      simp only [hk] at ha ⊢
      cases k with
      | node async t ss =>
        cases async with
        | false => exact h
        | true =>
          simp only at ha ⊢
          by_cases h0 : s.tasks n = 0
          · rw [if_pos h0]; exact h
          · rw [if_neg h0] at ha ⊢
            cases hi : ss[i]? with
            | none => exact h
            | some m =>
              have hm : m ∈ ss := List.mem_of_getElem? hi
              have hg := give_given (net := net) s (m := m)
                (hw.targets n _ (mem_of_lookup hk) m (by simp [Kind.targets, hm]))
              refine h.moves ⟨_, moves_of_more hg.le (fun m => ?_) hg.keeps hg.gates hg.held,
                fun h => h⟩ hg.checks (h.notified.more (fun j _ _ _ => hg.le j) (fun m => ?_))
                (fun b hb => (congrFun hg.gates b).trans (h.opened b hb))
                (fun m => (congrFun hg.dropping m).trans (h.drops m))
              · rw [hg.tasks]; exact Nat.le_refl _
              · rw [hg.held]; exact Nat.le_refl _
      | scope t ss =>
        simp only at ha ⊢
        by_cases h0 : s.tasks n = 0
        · rw [if_pos h0]; exact h
        · rw [if_neg h0] at ha ⊢
          cases hi : ss[i]? with
          | none => exact h
          | some m =>
            have hm : m ∈ ss := List.mem_of_getElem? hi
            have hg := give_given (net := net) s (m := m)
              (hw.targets n _ (mem_of_lookup hk) m (by simp [Kind.targets, hm]))
            refine h.moves ⟨_, moves_of_more hg.le (fun m => ?_) hg.keeps hg.gates hg.held,
              fun h => h⟩ hg.checks (h.notified.more (fun j _ _ _ => hg.le j) (fun m => ?_))
              (fun b hb => (congrFun hg.gates b).trans (h.opened b hb))
              (fun m => (congrFun hg.dropping m).trans (h.drops m))
            · rw [hg.tasks]; exact Nat.le_refl _
            · rw [hg.held]; exact Nat.le_refl _
      | _ => exact h
  | finish n =>
    simp only at ha ⊢
    cases hk : net.ops.lookup n with
    | none => exact h
    | some k =>
      have htg := hw.targets n k (mem_of_lookup hk)
      let s0 : State := { s with tasks := drop s.tasks n }
      have ht0 : ∀ m, m ≠ n → s.tasks m ≤ s0.tasks m := fun m hm => by
        show s.tasks m ≤ drop s.tasks n m
        rw [drop_ne _ hm]
        exact Nat.le_refl _
      simp only [hk] at ha ⊢
      cases k with
      | node async t ss =>
        cases async with
        | false => exact h
        | true =>
          simp only at ha ⊢
          by_cases h0 : s.tasks n = 0
          · rw [if_pos h0]; exact h
          · rw [if_neg h0] at ha ⊢
            have hg := give_given (net := net) s0 (m := t) (htg t (by simp [Kind.targets]))
            have hnot : Notified net (give net s0 t) :=
              h.notified.more (fun j _ _ _ => hg.le j)
                (fun m => by rw [hg.held]; exact Nat.le_refl _)
            cases ss with
            | nil =>
              exact h.moves ⟨_, moves_of_given (s := s) (s0 := s0) hw hk
                (fun _ _ => Nat.le_refl _) ht0 (.same rfl rfl rfl) rfl hg
                (fun m hm => hm) (fun _ _ _ _ _ _ _ h => h) (by simp) (by simp) (by simp),
                fun h => notTerm hk (by simp) h.symm⟩ hg.checks hnot
                (fun b hb => (congrFun hg.gates b).trans (h.opened b hb))
                (fun m => (congrFun hg.dropping m).trans (h.drops m))
            | cons x xs =>
              exact ⟨Or.inl (Nat.succ_pos _), hnot,
                fun b hb => (congrFun hg.gates b).trans (h.opened b hb),
                fun m => (congrFun hg.dropping m).trans (h.drops m)⟩
      | scope t ss =>
        have hq : ss = [] := hpr.quiet n t ss (mem_of_lookup hk)
        subst hq
        simp only at ha ⊢
        by_cases h0 : s.tasks n = 0
        · rw [if_pos h0]; exact h
        · rw [if_neg h0] at ha ⊢
          have hg := give_given (net := net) s0 (m := t) (htg t (by simp [Kind.targets]))
          exact h.moves ⟨_, moves_of_given (s := s) (s0 := s0) hw hk
            (fun _ _ => Nat.le_refl _) ht0 (.same rfl rfl rfl) rfl hg
            (fun m hm => hm) (fun _ _ _ _ _ _ _ h => h) (by simp) (by simp) (by simp),
            fun h => notTerm hk (by simp) h.symm⟩ hg.checks
            (h.notified.more (fun j _ _ _ => hg.le j)
                (fun m => by rw [hg.held]; exact Nat.le_refl _))
            (fun b hb => (congrFun hg.gates b).trans (h.opened b hb))
            (fun m => (congrFun hg.dropping m).trans (h.drops m))
      | _ => exact h
  | lose n =>
    simp only at ha ⊢
    cases hk : net.ops.lookup n with
    | none => exact h
    | some k =>
      simp only [hk] at ha ⊢
      cases k with
      | node async t ss =>
        cases async with
        | false => exact h
        | true =>
          simp only at ha ⊢
          by_cases h0 : s.tasks n = 0
          · rw [if_pos h0]; exact h
          · rw [if_neg h0]
            exact ⟨Or.inl (Nat.succ_pos _), h.notified, h.opened, h.drops⟩
      | _ => exact h
  | innerCancel n => exact he.elim
  | touch n b sub add loops =>
    simp only at ha ⊢
    split
    · rename_i cap hb
      split
      · rename_i hkey
        obtain ⟨l, bs, t, hk, hmem, hu⟩ := hasKey_iff hkey
        let s0 : State := { s with
          held := fun m => if m = b then pushes cap add (s.held m - sub) else s.held m }
        obtain ⟨ms, hg, _, _, hall⟩ := wake_given (net := net) s0 n b loops
        show Going net (wake net s0 n b loops)
        refine h.moves ⟨_, moves_of_key (s := s) hb hk hmem hu hg.le hg.tasks
          (Keeps.trans (s' := s0) (.same rfl rfl rfl) hg.keeps)
          (fun m hm => ?_) (fun m _ => congrFun hg.gates m), fun h => h⟩ hg.checks ?_
          (fun b hb => (congrFun hg.gates b).trans (h.opened b hb))
          (fun m => (congrFun hg.dropping m).trans (h.drops m))
        · rw [hg.held]
          show (if m = b then _ else s.held m) = _
          rw [if_neg hm]
        · intro j bs' t' hj
          obtain ⟨b', hb', hle⟩ := h.notified j bs' t' hj
          refine ⟨b', hb', ?_⟩
          rw [hg.held]
          have hp : s.pending j ≤ (wake net s0 n b loops).pending j := hg.le j
          by_cases hbb : b'.1 = b
          · have hin : b ∈ bs'.map (·.1) := List.mem_map.2 ⟨b', hb', hbb⟩
            have hjoined : Joined net b := ⟨j, bs', t', mem_of_lookup hj, hin⟩
            have hadd : add ≤ 1 := he hjoined
            have hjn : j ≠ n := by
              rintro rfl
              rw [hk] at hj
              cases hj
            have ho : isOpen s0 b = true := by
              show (s.gates b).getD true = true
              rw [h.opened b hjoined]
              rfl
            have hgot := hg.got j _ (hall ho j (mem_listeners.2
              (Or.inl ⟨bs', t', mem_of_lookup hj, hin⟩)) hjn) hj (by simp)
            have hgot : s.pending j + 1 ≤ (wake net s0 n b loops).pending j := hgot
            have hheld : s0.held b'.1 = pushes cap add (s.held b'.1 - sub) := by simp [s0, hbb]
            have := pushes_le cap add (s.held b'.1 - sub)
            omega
          · have hheld : s0.held b'.1 = s.held b'.1 := by simp [s0, hbb]
            omega
      · exact h
    · exact h
  | turn n b opens loops =>
    simp only at ha ⊢
    split
    · rename_i hkey
      obtain ⟨l, bs, t, hk, hmem, hu⟩ := hasKey_iff hkey
      obtain ⟨cap, hcap⟩ := (hw.accesses n l bs t (mem_of_lookup hk)).2 b hmem
      have hb := lookup_of_mem hw.keys hcap
      split
      · exact h
      · rename_i now hnow
        let s0 : State := { s with gates := fun m => if m = b then some opens else s.gates m }
        have hop0 : JoinsOpen net s0 := by
          intro b' hb'
          have hbb : b' ≠ b := by
            rintro rfl
            rw [h.opened b' hb'] at hnow
            cases hnow
          show (if b' = b then _ else s.gates b') = none
          rw [if_neg hbb]
          exact h.opened b' hb'
        have hg0 : ∀ m, m ≠ b → s0.gates m = s.gates m := fun m hm => by
          show (if m = b then _ else s.gates m) = _
          rw [if_neg hm]
        split
        · obtain ⟨ms, hg, _⟩ := wake_given (net := net) s0 n b loops
          show Going net (wake net s0 n b loops)
          refine h.moves ⟨_, moves_of_key (s := s) hb hk hmem hu hg.le hg.tasks
          (Keeps.trans (s' := s0) (.same rfl rfl rfl) hg.keeps)
            (fun m _ => congrFun hg.held m) (fun m hm => ?_), fun h => h⟩ hg.checks
            (h.notified.more (fun j _ _ _ => hg.le j) (fun m => ?_))
            (fun b hb => (congrFun hg.gates b).trans (hop0 b hb))
            (fun m => (congrFun hg.dropping m).trans (h.drops m))
          · rw [hg.gates]; exact hg0 m hm
          · rw [hg.held]; exact Nat.le_refl _
        · exact h.moves (s' := s0) ⟨_, moves_of_key (s := s) hb hk hmem hu
            (fun _ => Nat.le_refl _) rfl (.same rfl rfl rfl) (fun _ _ => rfl) hg0, fun h => h⟩ rfl
            h.notified hop0 h.drops
    · exact h
  | release n =>
    simp only at ha ⊢
    split
    · exact h
    · exact ⟨Or.inl (Nat.succ_pos _), h.notified, h.opened, h.drops⟩
  | letGo n => exact he.elim
  | gone n =>
    simp only at ha ⊢
    rw [if_pos (h.drops n)]
    exact h
  | check =>
    simp only at ha ⊢
    by_cases h0 : s.checks = 0
    · rw [if_pos h0]; exact h
    · rw [if_neg h0] at ha ⊢
      exact validate_going hw (s := { s with checks := s.checks - 1 }) h.notified h.opened h.drops ha

theorem step_ended {net : Net} {s : State} (e : Ev) (h : s.status ≠ .active) :
    step net s e = s := by
  unfold step
  rw [if_pos h]

theorem run_going {net : Net} (hw : Wired net) (hpr : Private net) (es : List Ev)
    (he : ∀ e, e ∈ es → Calm net e) {s : State}
    (h : s.status = .active → Going net s) :
    (run net s es).status = .active → Going net (run net s es) := by
  induction es generalizing s with
  | nil => exact h
  | cons e es ih =>
    refine ih (s := step net s e) (fun e' hn => he e' (by simp [hn])) ?_
    intro ha
    by_cases hs : s.status = .active
    · exact step_going hw hpr e (he e (by simp)) hs (h hs) ha
    · rw [step_ended e hs] at ha
      exact absurd ha hs

/-- Nothing can come any more in a session at rest. -/
theorem Quiescent.dead {net : Net} (hpr : Private net) {s : State} (hq : Quiescent s)
    (hn : Notified net s) (n : Nat) : ¬ Will net s n := by
  intro h
  obtain ⟨hq1, hq2, hq3, hq4, _⟩ := hq
  induction h with
  | @active n k _ ha =>
    have h1 := hq1 n
    have h2 := hq2 n
    cases k <;> simp only [Flow.active] at ha <;> omega
  | input _ _ _ _ ih => exact ih
  | @join j bs t hj _ ih =>
    obtain ⟨b, hbm, hle⟩ := hn j bs t hj
    have := hq1 j
    exact ih b hbm (by omega)
  | @key b a cap l bs t _ ha hmem hu =>
    have h1 := hq3 a
    have h2 := hq4 a
    have h3 := hpr.alone a l bs t (mem_of_lookup ha)
    simp only [used, h1, h2, Nat.lt_irrefl, decide_false, Bool.false_or, Bool.and_eq_true,
      decide_eq_true_eq] at hu
    omega
  | access _ _ _ _ ih => exact ih
  | @waiting b cap _ _ hp =>
    have := hq1 b
    omega
  | coming _ _ _ _ ih => exact ih
  | gate _ _ _ _ _ ih => exact ih

end Verif.Flow
