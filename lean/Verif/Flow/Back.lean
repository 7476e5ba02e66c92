import Verif.Flow.Steps

/-
Helper lemmas for C79: no event makes an operation live that was not.
-/
namespace Verif.Flow

open Graph (Live)

/-- Whatever activity there is after an event comes from activity before it. -/
structure Back (net : Net) (s s' : State) : Prop where
  act : ∀ m k, net.ops.lookup m = some k → active k s' m → Live (world net s) 0 m
  opened : ∀ b cap, net.ops.lookup b = some (.buffer cap) → isOpen s' b = true →
    isOpen s b = true ∨ Live (world net s) 0 b
  waiting : ∀ b cap, net.ops.lookup b = some (.buffer cap) → isOpen s' b = true →
    0 < s'.pending b → Live (world net s) 0 b
  held : ∀ b, Joined net b → 0 < s'.held b → 0 < s.held b ∨ Live (world net s) 0 b
  key : ∀ a l bs t, net.ops.lookup a = some (.access l bs t) → used s' a bs = true →
    used s a bs = true ∨ Live (world net s) 0 a

theorem Back.live {net : Net} (hw : Wired net) (hc : GatesOnlyClose net) {s s' : State}
    (hb : Back net s s') {x : Nat} (h : Live (world net s') 0 x) : Live (world net s) 0 x := by
  refine live_ind hw.keys (P := fun x => Live (world net s) 0 x) ?_ ?_ ?_ ?_ ?_ ?_ ?_ ?_ h
  · intro m k hk ha
    exact hb.act m k hk ha
  · intro m k i hk ht hi _ h
    exact look_input hk ht hi h
  · intro j bs t hj hbs
    refine .join (world_of s hj) ?_
    intro p hp h0
    obtain ⟨b, hbm, rfl⟩ := List.mem_map.1 hp
    have h0 : s.held b.1 = 0 := h0
    rcases Nat.eq_zero_or_pos (s'.held b.1) with h | h
    · exact (hbs b hbm h).2
    · rcases hb.held b.1 ⟨j, bs, t, mem_of_lookup hj, List.mem_map_of_mem (f := (·.1)) hbm⟩ h with h | h
      · omega
      · exact h
  · intro b cap a l bs t hbk ha hm hu
    rcases hb.key a l bs t ha hu with h | h
    · exact look_key hbk ha hm h
    · exact look_access hbk ha hm h
  · intro b cap a l bs t hbk ha hm _ h
    exact look_access hbk ha hm h
  · intro b cap hbk ho hp
    exact hb.waiting b cap hbk ho hp
  · intro b cap i hbk ho hi _ h
    rcases hb.opened b cap hbk ho with h' | h'
    · exact look_open_input hbk h' hi h
    · exact h'
  · intro b cap g bs t _ hg
    exact absurd (mem_of_lookup hg) (hc g bs t)

/-- After messages have been given to targets of live operations. -/
theorem back_of {net : Net} {s s' : State} {ms : List Nat}
    (hp : ∀ m, m ∉ ms → s'.pending m ≤ s.pending m)
    (hms : ∀ m k, m ∈ ms → net.ops.lookup m = some k → (∀ bs t, k ≠ .join bs t) → k ≠ .unused →
      ∃ i, i ∈ inputs net m ∧ Live (world net s) 0 i)
    (ht : ∀ m k, net.ops.lookup m = some k → 0 < s'.tasks m → active k s' m →
      0 < s.tasks m ∨ 0 < s.pending m)
    (ho : ∀ b cap, net.ops.lookup b = some (.buffer cap) → isOpen s' b = true →
      isOpen s b = true ∨ Live (world net s) 0 b)
    (hh : ∀ b, Joined net b → 0 < s'.held b → 0 < s.held b ∨ Live (world net s) 0 b)
    (hk : ∀ a l bs t, net.ops.lookup a = some (.access l bs t) → used s' a bs = true →
      used s a bs = true ∨ Live (world net s) 0 a) : Back net s s' := by
  refine ⟨?_, ho, ?_, hh, hk⟩
  · intro m k hk ha
    have hpl := active_plain ha
    by_cases hm : m ∈ ms
    · obtain ⟨i, hi, hl⟩ := hms m k hm hk (by rintro bs t rfl; simp [Kind.plain] at hpl)
        (plain_used hpl)
      exact look_input hk hpl hi hl
    · refine look_active hk ?_
      have h1 := hp m hm
      have h2 := ht m k hk
      cases k <;> simp only [active] at ha h2 ⊢ <;> omega
  · intro b cap hb hob hpb
    rcases ho b cap hb hob with h | h
    · by_cases hm : b ∈ ms
      · obtain ⟨i, hi, hl⟩ := hms b _ hm hb (by simp) (by simp)
        exact look_open_input hb h hi hl
      · exact look_open hb h (Nat.lt_of_lt_of_le hpb (hp b hm))
    · exact h

theorem open_same {net : Net} {s s' : State} (h : s'.gates = s.gates) :
    ∀ b cap, net.ops.lookup b = some (.buffer cap) → isOpen s' b = true →
      isOpen s b = true ∨ Live (world net s) 0 b := fun b _ _ ho =>
  Or.inl ((isOpen_congr h b).symm.trans ho)

theorem used_same {net : Net} {s s' : State} (h : Keeps s' s) :
    ∀ a l bs t, net.ops.lookup a = some (.access l bs t) → used s' a bs = true →
      used s a bs = true ∨ Live (world net s) 0 a := fun _ _ _ _ _ hu => Or.inl (h.used hu)

theorem input_of {net : Net} {n m : Nat} {k : Kind} (hk : net.ops.lookup n = some k)
    (h : m ∈ k.targets) : n ∈ inputs net m := mem_inputs.2 (Or.inl ⟨k, mem_of_lookup hk, h⟩)

theorem input_of_listener {net : Net} (hw : Wired net) {m b : Nat} {k : Kind}
    (h : m ∈ listeners net b) (hk : net.ops.lookup m = some k) (hj : ∀ bs t, k ≠ .join bs t) :
    b ∈ inputs net m := by
  rcases mem_listeners.1 h with ⟨bs, t, h1, _⟩ | ⟨bs, t, h1, h2⟩
  · rw [lookup_of_mem hw.keys h1] at hk
    cases hk
    exact absurd rfl (hj bs t)
  · exact mem_inputs.2 (Or.inr ⟨bs, t, lookup_of_mem hw.keys h1, h2⟩)

/-- What an operation other than a buffer or a join changes. -/
theorem execute_effect {net : Net} (hw : Wired net) {s : State} {n : Nat} {k : Kind} (c : Choice)
    (hk : net.ops.lookup n = some k) (hb : ∀ cap, k ≠ .buffer cap) (hj : ∀ bs t, k ≠ .join bs t)
    (hg : ∀ bs t, k ≠ .gate true bs t) :
    (∀ m, m ∉ k.targets → (execute net s n c k).pending m = s.pending m) ∧
      (∀ m, m ≠ n → (execute net s n c k).tasks m = s.tasks m) := by
  have htg : ∀ m, m ∈ k.targets → m ∈ net.ops.map (·.1) := hw.targets n k (mem_of_lookup hk)
  cases k with
  | node async t ss =>
    cases async with
    | true =>
      refine ⟨fun _ _ => rfl, fun m hm => ?_⟩
      show bump s.tasks n m = s.tasks m
      simp [bump, hm]
    | false =>
      have h1 := giveAll_given (net := net) (copies ss c) s
        (fun m hm => htg m (by simp [Kind.targets, mem_copies hm]))
      simp only [execute, Bool.false_eq_true, if_false]
      have key : ∀ s1 : State, s1.pending = (giveAll net s (copies ss c)).pending →
          s1.tasks = (giveAll net s (copies ss c)).tasks →
          (∀ m, m ∉ (Kind.node false t ss).targets → (give net s1 t).pending m = s.pending m) ∧
            ∀ m, m ≠ n → (give net s1 t).tasks m = s.tasks m := by
        intro s1 hp1 ht1
        have h2 := give_given (net := net) s1 (m := t) (htg t (by simp [Kind.targets]))
        refine ⟨fun m hm => ?_, fun m _ => ?_⟩
        · simp only [Kind.targets, List.mem_cons, not_or] at hm
          rw [h2.only m (by simpa using hm.1), hp1, h1.only m (fun h => hm.2 (mem_copies h))]
        · rw [h2.tasks, ht1, h1.tasks]
      split
      · exact key _ rfl rfl
      · exact key _ rfl rfl
  | fork ts =>
    have h1 := giveAll_given (net := net) ts s htg
    exact ⟨h1.only, fun m _ => congrFun h1.tasks m⟩
  | branch a b =>
    simp only [execute]
    split
    · have h1 := give_given (net := net) s (m := a) (htg a (by simp [Kind.targets]))
      exact ⟨fun m hm => h1.only m (by simp [Kind.targets] at hm; simp [hm.1]),
        fun m _ => congrFun h1.tasks m⟩
    · have h1 := give_given (net := net) (dispose s) (m := b) (htg b (by simp [Kind.targets]))
      exact ⟨fun m hm => h1.only m (by simp [Kind.targets] at hm; simp [hm.2]),
        fun m _ => congrFun h1.tasks m⟩
  | filter t =>
    simp only [execute]
    split
    · exact ⟨fun _ _ => rfl, fun _ _ => rfl⟩
    · have h1 := give_given (net := net) s (m := t) (htg t (by simp [Kind.targets]))
      exact ⟨h1.only, fun m _ => congrFun h1.tasks m⟩
  | spread t =>
    have h1 := giveAll_given (net := net) (List.replicate (c.headD 0) t) s
      (fun m hm => htg m (by simp [Kind.targets, (List.mem_replicate.1 hm).2]))
    have h2 : ∀ m, m ∉ (Kind.spread t).targets →
        (giveAll net s (List.replicate (c.headD 0) t)).pending m = s.pending m :=
      fun m hm => h1.only m (fun h => hm (by simp [Kind.targets, (List.mem_replicate.1 h).2]))
    simp only [execute]
    split
    · exact ⟨h2, fun m _ => congrFun h1.tasks m⟩
    · exact ⟨h2, fun m _ => congrFun h1.tasks m⟩
  | split ts =>
    have h1 := giveAll_given (net := net) (copies ts c) s
      (fun m hm => htg m (by simpa [Kind.targets] using mem_copies hm))
    have h2 : ∀ m, m ∉ (Kind.split ts).targets →
        (giveAll net s (copies ts c)).pending m = s.pending m :=
      fun m hm => h1.only m (fun h => hm (by simpa [Kind.targets] using mem_copies h))
    simp only [execute]
    split
    · exact ⟨h2, fun m _ => congrFun h1.tasks m⟩
    · exact ⟨h2, fun m _ => congrFun h1.tasks m⟩
  | buffer cap => exact absurd rfl (hb cap)
  | join bs t => exact absurd rfl (hj bs t)
  | scope t ss =>
    refine ⟨fun _ _ => rfl, fun m hm => ?_⟩
    show bump s.tasks n m = s.tasks m
    simp [bump, hm]
  | access l bs t =>
    have h1 := give_given (net := net) { s with
      keys := fun m => if m = n then s.keys m + bs.length else s.keys m
      made := fun m => m = n || s.made m } (m := t) (htg t (by simp [Kind.targets]))
    exact ⟨h1.only, fun m _ => congrFun h1.tasks m⟩
  | gate opens bs t =>
    cases opens with
    | true => exact absurd rfl (hg bs t)
    | false =>
      have h1 := worked (net := net) false bs s
      have h2 := give_given (net := net) (bs.foldl (actGate net false) s) (m := t)
        (htg t (by simp [Kind.targets]))
      simp only [execute, Bool.false_eq_true, if_false]
      exact ⟨fun m hm => (h2.only m hm).trans (congrFun (h1.shut rfl) m),
        fun m _ => congrFun (h2.tasks.trans h1.tasks) m⟩
  | cancel => exact ⟨fun _ _ => rfl, fun _ _ => rfl⟩
  | terminate => exact ⟨fun _ _ => rfl, fun _ _ => rfl⟩
  | unused => exact ⟨fun _ _ => rfl, fun _ _ => rfl⟩

/-- Operations that only close gates make nothing open. -/
theorem execute_opens {net : Net} (hw : Wired net) {s : State} {n : Nat} {k : Kind} (c : Choice)
    (hk : net.ops.lookup n = some k) (hg : ∀ bs t, k ≠ .gate true bs t) {b : Nat}
    (h : isOpen (execute net s n c k) b = true) : isOpen s b = true := by
  by_cases hgate : ∃ o bs t, k = .gate o bs t ∧ b ∈ bs
  · obtain ⟨o, bs, t, rfl, hm⟩ := hgate
    cases o with
    | true => exact absurd rfl (hg bs t)
    | false =>
      have h1 := (worked (net := net) false bs s).gates b
      have h2 := give_given (net := net) (bs.foldl (actGate net false) s) (m := t)
        (hw.targets n _ (mem_of_lookup hk) t (by simp [Kind.targets]))
      rw [if_pos hm] at h1
      simp only [execute, Bool.false_eq_true, if_false, isOpen, dispose] at h
      rw [h2.gates, h1] at h
      cases h
  · have := (execute_side hw (s := s) c hk).2 b (fun o bs t he hm => hgate ⟨o, bs, t, he, hm⟩)
    unfold isOpen at h ⊢
    rw [this] at h
    exact h

@[simp] theorem give_gates (net : Net) (s : State) (m : Nat) : (give net s m).gates = s.gates := by
  unfold give; split <;> rfl

@[simp] theorem give_keys (net : Net) (s : State) (m : Nat) : (give net s m).keys = s.keys := by
  unfold give; split <;> rfl

@[simp] theorem give_made (net : Net) (s : State) (m : Nat) : (give net s m).made = s.made := by
  unfold give; split <;> rfl

@[simp] theorem giveAll_keys (net : Net) (ms : List Nat) (s : State) :
    (giveAll net s ms).keys = s.keys := by
  unfold giveAll
  induction ms generalizing s with
  | nil => rfl
  | cons m ms ih => simp only [List.foldl_cons]; rw [ih]; simp

@[simp] theorem giveAll_made (net : Net) (ms : List Nat) (s : State) :
    (giveAll net s ms).made = s.made := by
  unfold giveAll
  induction ms generalizing s with
  | nil => rfl
  | cons m ms ih => simp only [List.foldl_cons]; rw [ih]; simp

/-- An operation hands out keys of its own only. -/
theorem execute_keys {net : Net} (s : State) (n : Nat) (c : Choice) (k : Kind) {m : Nat}
    (hm : m ≠ n) : (execute net s n c k).keys m = s.keys m ∧
      (execute net s n c k).made m = s.made m := by
  cases k with
  | node async t ss =>
    cases async with
    | true => exact ⟨rfl, rfl⟩
    | false =>
      simp only [execute, Bool.false_eq_true, if_false, give_keys, give_made]
      split <;> simp [dispose]
  | fork ts => simp [execute]
  | branch a b => simp only [execute]; split <;> simp [dispose]
  | filter t => simp only [execute]; split <;> simp [dispose]
  | spread t => simp only [execute]; split <;> simp [dispose]
  | split ts => simp only [execute]; split <;> simp [dispose]
  | buffer cap => simp only [execute]; split <;> simp
  | join bs t => simp only [execute]; split <;> simp
  | scope t ss => exact ⟨rfl, rfl⟩
  | access l bs t => simp [execute, hm]
  | gate opens bs t =>
    have h1 := worked (net := net) opens bs s
    simp only [execute]
    split <;> simp [dispose, h1.keys, h1.made]
  | cancel => exact ⟨rfl, rfl⟩
  | terminate => exact ⟨rfl, rfl⟩
  | unused => exact ⟨rfl, rfl⟩

theorem execute_back {net : Net} (hw : Wired net) (hc : GatesOnlyClose net) {s : State}
    (hopen : JoinsOpen net s) {n : Nat} {k : Kind} (c : Choice)
    (hk : net.ops.lookup n = some k) (h0 : s.pending n ≠ 0) :
    Back net s (execute net (taken s n) n c k) := by
  have hmem := mem_of_lookup hk
  have htk : ∀ m, (taken s n).pending m ≤ s.pending m := fun m => drop_le _ _ _
  have hlive : k.plain = true → Live (world net s) 0 n := fun ht =>
    look_active hk (active_of_pending ht (by omega))
  have hgt : ∀ bs t, k ≠ .gate true bs t := by
    rintro bs t rfl
    exact hc n bs t hmem
  have hop : ∀ b cap, net.ops.lookup b = some (.buffer cap) →
      isOpen (execute net (taken s n) n c k) b = true →
      isOpen s b = true ∨ Live (world net s) 0 b := fun b _ _ h =>
    Or.inl (execute_opens hw (s := taken s n) c hk hgt h)
  have hus : ∀ a l bs t, net.ops.lookup a = some (.access l bs t) →
      used (execute net (taken s n) n c k) a bs = true →
      used s a bs = true ∨ Live (world net s) 0 a := by
    intro a l bs t ha hu
    by_cases han : a = n
    · subst han
      rw [hk] at ha
      cases ha
      exact Or.inr (hlive rfl)
    · left
      have h1 := execute_keys (net := net) (taken s n) n c k han
      have h2 := congrFun (execute_side hw (s := taken s n) c hk).1 a
      unfold used at hu ⊢
      rw [h1.1, h1.2, h2] at hu
      exact hu
  by_cases hb : ∃ cap, k = .buffer cap
  · obtain ⟨cap, rfl⟩ := hb
    let s0 : State := { taken s n with
      held := fun m => if m = n then push cap ((taken s n).held m) else (taken s n).held m }
    have hother : ∀ b, b ≠ n → s0.held b = s.held b := fun b hbn => by simp [s0, taken, hbn]
    cases ho : isOpen (taken s n) n with
    | true =>
      have ho' : isOpen s n = true := ho
      have he : execute net (taken s n) n c (.buffer cap) = giveAll net s0 (listeners net n) := by
        simp only [execute, ho, if_true]
        rfl
      have h1 : Given net s0 (giveAll net s0 (listeners net n)) (listeners net n) :=
        giveAll_given _ _ (fun m hm => listeners_exist hm)
      have hl : Live (world net s) 0 n := look_open hk ho' (by omega)
      refine back_of (ms := listeners net n) ?_ ?_ ?_ hop ?_ hus
      · intro m hm
        rw [he, h1.only m hm]
        exact htk m
      · intro m k' hm hk' hj _
        exact ⟨n, input_of_listener hw hm hk' hj, hl⟩
      · intro m k' _ h _
        rw [he, h1.tasks] at h
        exact Or.inl h
      · intro b _ h
        rw [he, h1.held] at h
        by_cases hbn : b = n
        · rw [hbn]; exact Or.inr hl
        · rw [hother b hbn] at h
          exact Or.inl h
    | false =>
      have he : execute net (taken s n) n c (.buffer cap) = s0 := by
        simp only [execute, ho, Bool.false_eq_true, if_false]
        rfl
      refine back_of (ms := []) ?_ (fun m _ h => by simp at h) ?_ hop ?_ hus
      · intro m _
        rw [he]
        exact htk m
      · intro m k' _ h _
        rw [he] at h
        exact Or.inl h
      · intro b hj h
        rw [he] at h
        by_cases hbn : b = n
        · subst hbn
          have : isOpen s b = false := ho
          unfold isOpen at this
          rw [hopen b hj] at this
          cases this
        · rw [hother b hbn] at h
          exact Or.inl h
  · by_cases hjo : ∃ bs t, k = .join bs t
    · obtain ⟨bs, t, rfl⟩ := hjo
      cases hr : ready (taken s n).held bs with
      | false =>
        have he : execute net (taken s n) n c (.join bs t) = taken s n := by
          simp only [execute, hr, Bool.false_eq_true, if_false]
        rw [he] at hop hus ⊢
        exact back_of (ms := []) (fun m _ => htk m) (fun m _ h => by simp at h)
          (fun _ _ _ h _ => Or.inl h) hop (fun _ _ h => Or.inl h) hus
      | true =>
        let s0 : State := { taken s n with held := fetch (taken s n).held bs }
        have he : execute net (taken s n) n c (.join bs t) = give net s0 t := by
          simp only [execute, hr, if_true]
          rfl
        rw [he] at hop hus ⊢
        have h1 := give_given (net := net) s0 (m := t)
          (hw.targets n _ hmem t (by simp [Kind.targets]))
        have hl : Live (world net s) 0 n := by
          refine .join (world_of s hk) ?_
          intro p hp hz
          obtain ⟨b, hbm, rfl⟩ := List.mem_map.1 hp
          have hz : s.held b.1 = 0 := hz
          have := (ready_iff.1 hr).2 b hbm
          have : 0 < s.held b.1 := this
          omega
        refine back_of (ms := [t]) ?_ ?_ ?_ hop ?_ hus
        · intro m hm
          rw [h1.only m hm]
          exact htk m
        · intro m k' hm _ _ _
          exact ⟨n, input_of hk hm, hl⟩
        · intro m k' _ h _
          rw [h1.tasks] at h
          exact Or.inl h
        · intro b _ h
          rw [h1.held] at h
          exact Or.inl (Nat.lt_of_lt_of_le h (fetch_le _ _ _))
    · have h1 := execute_plain hw (s := taken s n) c hk (fun cap hc => hb ⟨cap, hc⟩)
        (fun bs t hc => hjo ⟨bs, t, hc⟩)
      have h2 := execute_effect hw (s := taken s n) c hk (fun cap hc => hb ⟨cap, hc⟩)
        (fun bs t hc => hjo ⟨bs, t, hc⟩) hgt
      refine back_of (ms := k.targets) ?_ ?_ ?_ hop ?_ hus
      · intro m hm
        rw [h2.1 m hm]
        exact htk m
      · intro m k' hm _ _ _
        refine ⟨n, input_of hk hm, hlive ?_⟩
        cases k with
        | join bs t => exact absurd ⟨_, _, rfl⟩ hjo
        | buffer cap => exact absurd ⟨_, rfl⟩ hb
        | unused => simp [Kind.targets] at hm
        | _ => rfl
      · intro m k' _ h _
        by_cases hmn : m = n
        · right; rw [hmn]; omega
        · left
          rw [h2.2 m hmn] at h
          exact h
      · intro b _ h
        rw [h1.1] at h
        exact Or.inl h

theorem give_status {net : Net} {s : State} (m : Nat) (h : s.status ≠ .terminated) :
    (give net s m).status ≠ .terminated := by
  unfold give
  split
  · simp
  · exact h
  · exact h

theorem giveAll_status {net : Net} (ms : List Nat) {s : State} (h : s.status ≠ .terminated) :
    (giveAll net s ms).status ≠ .terminated := by
  unfold giveAll
  induction ms generalizing s with
  | nil => exact h
  | cons m ms ih => exact ih (give_status m h)

/-- Only the terminal ends a session with a response. -/
theorem execute_status {net : Net} {s : State} {n : Nat} {k : Kind} (c : Choice)
    (hk : k ≠ .terminate) (h : s.status ≠ .terminated) :
    (execute net s n c k).status ≠ .terminated := by
  cases k with
  | node async t ss =>
    cases async with
    | true => exact h
    | false =>
      simp only [execute, Bool.false_eq_true, if_false]
      have := giveAll_status (net := net) (copies ss c) h
      split
      · exact give_status t (s := dispose (giveAll net s (copies ss c))) this
      · exact give_status t this
  | fork ts => exact giveAll_status ts h
  | branch a b =>
    simp only [execute]
    split
    · exact give_status a h
    · exact give_status b (s := dispose s) h
  | filter t =>
    simp only [execute]
    split
    · exact h
    · exact give_status t h
  | spread t =>
    have := giveAll_status (net := net) (List.replicate (c.headD 0) t) h
    simp only [execute]
    split <;> exact this
  | split ts =>
    have := giveAll_status (net := net) (copies ts c) h
    simp only [execute]
    split <;> exact this
  | buffer cap =>
    simp only [execute]
    split
    · exact giveAll_status _ h
    · exact h
  | join bs t =>
    simp only [execute]
    split
    · exact give_status t h
    · exact h
  | scope t ss => exact h
  | access l bs t => exact give_status t h
  | gate opens bs t =>
    have h1 : (give net (bs.foldl (actGate net opens) s) t).status ≠ .terminated :=
      give_status t (by rw [(worked (net := net) opens bs s).status]; exact h)
    simp only [execute]
    split
    · exact h1
    · exact h1
  | cancel => simp [execute]
  | terminate => exact absurd rfl hk
  | unused => exact h

/-- The gates of the buffers of joins stay as they are. -/
theorem JoinsOpen.step {net : Net} (hw : Wired net) (hu : JoinsUngated net) {s : State}
    (h : JoinsOpen net s) (e : Ev) : JoinsOpen net (step net s e) := by
  intro b hb
  have given : ∀ {s0 : State} (m : Nat), s0.gates b = s.gates b →
      (give net s0 m).gates b = none := fun {s0} m h0 => by
    rw [give_gates, h0]; exact h b hb
  unfold Flow.step
  split
  · exact h b hb
  · cases e with
    | exec n c =>
      simp only
      split
      · exact h b hb
      · rename_i k hk
        split
        · exact h b hb
        · exact JoinsOpen.execute hw hu (s := taken s n) h c hk b hb
    | item n i =>
      simp only
      split
      · split
        · exact h b hb
        · split
          · exact h b hb
          · exact given _ rfl
      · split
        · exact h b hb
        · split
          · exact h b hb
          · exact given _ rfl
      · exact h b hb
    | finish n =>
      simp only
      split
      · split
        · exact h b hb
        · split
          · exact given (s0 := { s with tasks := drop s.tasks n }) _ rfl
          · exact given (s0 := { s with tasks := drop s.tasks n }) _ rfl
      · split
        · exact h b hb
        · exact given (s0 := { s with tasks := drop s.tasks n }) _ rfl
      · exact h b hb
    | lose n =>
      simp only
      split
      · split
        · exact h b hb
        · exact h b hb
      · exact h b hb
    | innerCancel n =>
      simp only
      split
      · split
        · exact h b hb
        · split
          · exact h b hb
          · exact h b hb
      · exact h b hb
    | touch n b' sub add loops =>
      simp only
      split
      · rename_i cap _
        split
        · obtain ⟨ms, hg, _⟩ := wake_given (net := net) { s with
            held := fun m => if m = b' then pushes cap add (s.held m - sub) else s.held m } n b' loops
          rw [hg.gates]
          exact h b hb
        · exact h b hb
      · exact h b hb
    | turn n b' opens loops =>
      simp only
      split
      · split
        · exact h b hb
        · rename_i now hnow
          have hbb : b ≠ b' := by
            rintro rfl
            rw [h b hb] at hnow
            cases hnow
          split
          · obtain ⟨ms, hg, _⟩ := wake_given (net := net) { s with
              gates := fun m => if m = b' then some opens else s.gates m } n b' loops
            rw [hg.gates]
            show (if b = b' then _ else s.gates b) = none
            rw [if_neg hbb]
            exact h b hb
          · show (if b = b' then _ else s.gates b) = none
            rw [if_neg hbb]
            exact h b hb
      · exact h b hb
    | release n => simp only; split <;> exact h b hb
    | letGo n => simp only; split <;> exact h b hb
    | gone n => simp only; split <;> exact h b hb
    | check =>
      simp only
      split
      · exact h b hb
      · unfold validate
        split <;> exact h b hb

/-- An event leaves the session as it was, ends it by cancellation, ends it at the terminal that
was live, or goes on without making anything live. -/
theorem step_back {net : Net} (hw : Wired net) (hc : GatesOnlyClose net) {s : State}
    (hopen : JoinsOpen net s) (e : Ev) (ha : s.status = .active) :
    (∀ x, Live (world net (step net s e)) 0 x → Live (world net s) 0 x) ∧
      ((step net s e).status = .terminated → Live (world net s) 0 net.terminal) := by
  have of_given : ∀ {n k t} {s0 s' : State} , net.ops.lookup n = some k → t ∈ k.targets →
      active k s n → (∀ m, s0.pending m = s.pending m) →
      (∀ m, s0.tasks m ≤ s.tasks m) → s0.held = s.held → s0.gates = s.gates → Keeps s0 s →
      s0.status = .active → Given net s0 s' [t] →
      (∀ x, Live (world net s') 0 x → Live (world net s) 0 x) ∧
      (s'.status = .terminated → Live (world net s) 0 net.terminal) := by
    intro n k t s0 s' hk ht hact hp hts hh hgs hks hst hg
    refine ⟨fun x hx => Back.live hw hc ?_ hx, fun h => ?_⟩
    · refine back_of (ms := [t]) ?_ ?_ ?_ (open_same (hg.gates.trans hgs)) ?_
        (used_same (Keeps.trans (.same hg.keys.symm hg.dropping.symm hg.made.symm) hks))
      · intro m hm
        rw [hg.only m hm, hp m]
        exact Nat.le_refl _
      · intro m k' hm _ _ _
        have : m = t := by simpa using hm
        rw [this]
        exact ⟨n, input_of hk ht, look_active hk hact⟩
      · intro m k' _ h _
        rw [hg.tasks] at h
        exact Or.inl (Nat.lt_of_lt_of_le h (hts m))
      · intro b _ h
        rw [hg.held, hh] at h
        exact Or.inl h
    · rw [hg.status, hst] at h
      cases h
  have same : (∀ x, Live (world net s) 0 x → Live (world net s) 0 x) ∧
      (s.status = .terminated → Live (world net s) 0 net.terminal) :=
    ⟨fun _ h => h, fun h => by rw [ha] at h; cases h⟩
  have keyed : ∀ {n b cap} {s0 : State} (loops : Bool), net.ops.lookup b = some (.buffer cap) →
      hasKey net s n b = true → s0.pending = s.pending → s0.tasks = s.tasks →
      (∀ m, m ≠ b → s0.held m = s.held m) → (∀ m, m ≠ b → s0.gates m = s.gates m) →
      Keeps s0 s → s0.status = .active → ∀ s', (s' = s0 ∨ s' = wake net s0 n b loops) →
      (∀ x, Live (world net s') 0 x → Live (world net s) 0 x) ∧
      (s'.status = .terminated → Live (world net s) 0 net.terminal) := by
    intro n b cap s0 loops hb hkey hp ht hh hgs hks hst s' hs'
    obtain ⟨l, bs, t, hk, hmem, hu⟩ := hasKey_iff hkey
    have hl : Live (world net s) 0 b := look_key hb hk hmem hu
    have hg : ∃ ms, Given net s0 s' ms ∧ ∀ m, m ∈ ms → m ∈ listeners net b := by
      rcases hs' with rfl | rfl
      · exact ⟨[], Given.nil net _, fun m hm => by simp at hm⟩
      · obtain ⟨ms, hg, hms, _⟩ := wake_given (net := net) s0 n b loops
        exact ⟨ms, hg, hms⟩
    obtain ⟨ms, hg, hms⟩ := hg
    refine ⟨fun x hx => Back.live hw hc ?_ hx, fun h => ?_⟩
    · refine back_of (ms := ms) ?_ ?_ ?_ ?_ ?_
        (used_same (Keeps.trans (.same hg.keys.symm hg.dropping.symm hg.made.symm) hks))
      · intro m hm
        rw [hg.only m hm, hp]
        exact Nat.le_refl _
      · intro m k' hm hk' hj _
        exact ⟨b, input_of_listener hw (hms m hm) hk' hj, hl⟩
      · intro m k' _ h _
        rw [hg.tasks, ht] at h
        exact Or.inl h
      · intro b' cap' _ ho
        by_cases hbb : b' = b
        · rw [hbb]; exact Or.inr hl
        · left
          unfold isOpen at ho ⊢
          rw [hg.gates, hgs b' hbb] at ho
          exact ho
      · intro b' _ h
        by_cases hbb : b' = b
        · rw [hbb]; exact Or.inr hl
        · rw [hg.held, hh b' hbb] at h
          exact Or.inl h
    · rw [hg.status, hst] at h
      cases h
  have fewer : ∀ {s' : State}, s'.pending = s.pending → (∀ m, s'.tasks m ≤ s.tasks m) →
      s'.held = s.held → s'.gates = s.gates →
      (∀ a l bs t, net.ops.lookup a = some (.access l bs t) → used s' a bs = true →
        used s a bs = true) → s'.status ≠ .terminated →
      (∀ x, Live (world net s') 0 x → Live (world net s) 0 x) ∧
      (s'.status = .terminated → Live (world net s) 0 net.terminal) := by
    intro s' hp ht hh hgs hus hs
    refine ⟨fun x hx => Back.live hw hc ?_ hx, fun h => absurd h hs⟩
    refine back_of (ms := []) ?_ (fun m _ h => by simp at h) ?_ (open_same hgs) ?_
      (fun a l bs t ha hu => Or.inl (hus a l bs t ha hu))
    · intro m _; rw [hp]; exact Nat.le_refl _
    · intro m _ _ h _; exact Or.inl (Nat.lt_of_lt_of_le h (ht m))
    · intro b _ h; rw [hh] at h; exact Or.inl h
  unfold step
  rw [if_neg (show ¬ s.status ≠ .active from fun h => h ha)]
  cases e with
  | exec n c =>
    simp only
    cases hk : net.ops.lookup n with
    | none => exact same
    | some k =>
      simp only
      by_cases h0 : s.pending n = 0
      · rw [if_pos h0]; exact same
      · rw [if_neg h0]
        refine ⟨fun x hx => (execute_back hw hc hopen c hk h0).live hw hc hx, fun h => ?_⟩
        have hterm : k = .terminate := by
          refine Classical.byContradiction (fun hne => ?_)
          exact execute_status c hne (s := taken s n) (by simp [taken, ha]) h
        subst hterm
        have := (hw.terminal n).1 (mem_of_lookup hk)
        subst this
        exact look_active hk (active_of_pending rfl (by omega))
  | item n i =>
    simp only
    cases hk : net.ops.lookup n with
    | none => exact same
    | some k =>
      cases k with
      | node async t ss =>
        cases async with
        | false => exact same
        | true =>
          simp only
          by_cases h0 : s.tasks n = 0
          · rw [if_pos h0]; exact same
          · rw [if_neg h0]
            cases hi : ss[i]? with
            | none => exact same
            | some m =>
              have hm : m ∈ ss := List.mem_of_getElem? hi
              have hmt : m ∈ (Kind.node true t ss).targets := by simp [Kind.targets, hm]
              exact of_given hk hmt (Or.inr (by omega)) (fun _ => rfl)
                (fun _ => Nat.le_refl _) rfl rfl (.same rfl rfl rfl) ha
                (give_given (net := net) s (hw.targets n _ (mem_of_lookup hk) m hmt))
      | scope t ss =>
        simp only
        by_cases h0 : s.tasks n = 0
        · rw [if_pos h0]; exact same
        · rw [if_neg h0]
          cases hi : ss[i]? with
          | none => exact same
          | some m =>
            have hm : m ∈ ss := List.mem_of_getElem? hi
            have hmt : m ∈ (Kind.scope t ss).targets := by simp [Kind.targets, hm]
            exact of_given hk hmt (Or.inr (by omega)) (fun _ => rfl)
              (fun _ => Nat.le_refl _) rfl rfl (.same rfl rfl rfl) ha
              (give_given (net := net) s (hw.targets n _ (mem_of_lookup hk) m hmt))
      | _ => exact same
  | finish n =>
    simp only
    cases hk : net.ops.lookup n with
    | none => exact same
    | some k =>
      let s0 : State := { s with tasks := drop s.tasks n }
      cases k with
      | node async t ss =>
        cases async with
        | false => exact same
        | true =>
          simp only
          by_cases h0 : s.tasks n = 0
          · rw [if_pos h0]; exact same
          · rw [if_neg h0]
            have hmt : t ∈ (Kind.node true t ss).targets := by simp [Kind.targets]
            have := of_given (s0 := s0) hk hmt (Or.inr (by omega)) (fun _ => rfl)
                (fun _ => drop_le _ _ _) rfl rfl (.same rfl rfl rfl) ha
                (give_given (net := net) s0 (hw.targets n _ (mem_of_lookup hk) t hmt))
            split
            · exact this
            · refine ⟨fun x hx => this.1 x ?_, this.2⟩
              have hx : Live (world net (dispose (give net s0 t))) 0 x := hx
              rw [world_congr (s := give net s0 t) (s' := dispose (give net s0 t)) rfl rfl rfl rfl rfl rfl rfl]
                at hx
              exact hx
      | scope t ss =>
        simp only
        by_cases h0 : s.tasks n = 0
        · rw [if_pos h0]; exact same
        · rw [if_neg h0]
          have hmt : t ∈ (Kind.scope t ss).targets := by simp [Kind.targets]
          exact of_given (s0 := s0) hk hmt (Or.inr (by omega)) (fun _ => rfl)
              (fun _ => drop_le _ _ _) rfl rfl (.same rfl rfl rfl) ha
              (give_given (net := net) s0 (hw.targets n _ (mem_of_lookup hk) t hmt))
      | _ => exact same
  | lose n =>
    simp only
    cases hk : net.ops.lookup n with
    | none => exact same
    | some k =>
      cases k with
      | node async t ss =>
        cases async with
        | false => exact same
        | true =>
          simp only
          by_cases h0 : s.tasks n = 0
          · rw [if_pos h0]; exact same
          · rw [if_neg h0]
            exact fewer rfl (fun _ => drop_le _ _ _) rfl rfl (fun _ _ _ _ _ h => h) (by simp [dispose, ha])
      | _ => exact same
  | innerCancel n =>
    simp only
    cases hk : net.ops.lookup n with
    | none => exact same
    | some k =>
      cases k with
      | scope t ss =>
        simp only
        by_cases h0 : s.tasks n = 0
        · rw [if_pos h0]; exact same
        · rw [if_neg h0]
          split
          · exact fewer rfl (fun _ => drop_le _ _ _) rfl rfl (fun _ _ _ _ _ h => h) (by simp [dispose, ha])
          · exact fewer rfl (fun _ => drop_le _ _ _) rfl rfl (fun _ _ _ _ _ h => h) (by simp [ha])
      | _ => exact same
  | touch n b sub add loops =>
    simp only
    split
    · rename_i cap hb
      split
      · rename_i hkey
        exact keyed (s0 := { s with
          held := fun m => if m = b then pushes cap add (s.held m - sub) else s.held m }) loops hb hkey
          rfl rfl (fun m hm => by simp [hm]) (fun _ _ => rfl) (.same rfl rfl rfl) ha _ (Or.inr rfl)
      · exact same
    · exact same
  | turn n b opens loops =>
    simp only
    split
    · rename_i hkey
      obtain ⟨l, bs, t, hk, hmem, _⟩ := hasKey_iff hkey
      obtain ⟨cap, hcap⟩ := (hw.accesses n l bs t (mem_of_lookup hk)).2 b hmem
      have hb := lookup_of_mem hw.keys hcap
      split
      · exact same
      · refine keyed (s0 := { s with gates := fun m => if m = b then some opens else s.gates m }) loops
          hb hkey rfl rfl (fun _ _ => rfl) (fun m hm => by simp [hm]) (.same rfl rfl rfl) ha _ ?_
        split
        · exact Or.inr rfl
        · exact Or.inl rfl
    · exact same
  | release n =>
    simp only
    split
    · exact same
    · refine fewer rfl (fun _ => Nat.le_refl _) rfl rfl ?_ (by simp [dispose, ha])
      intro a l bs t _ hu
      have := drop_le s.keys n a
      unfold used dispose at hu
      unfold used
      simp only [Bool.or_eq_true, Bool.and_eq_true, decide_eq_true_eq] at hu ⊢
      rcases hu with (hu | hu) | hu
      · left; left; omega
      · exact Or.inl (Or.inr hu)
      · exact Or.inr hu
  | letGo n =>
    simp only
    split
    · exact same
    · rename_i hn
      refine fewer rfl (fun _ => Nat.le_refl _) rfl rfl ?_ (by simp [dispose, ha])
      intro a l bs t _ hu
      have := drop_le s.keys n a
      unfold used dispose at hu
      unfold used
      simp only [Bool.or_eq_true, Bool.and_eq_true, decide_eq_true_eq] at hu ⊢
      rcases hu with (hu | hu) | hu
      · left; left; omega
      · by_cases han : a = n
        · left; left; rw [han]; omega
        · left; right
          simpa [bump, han] using hu
      · exact Or.inr hu
  | gone n =>
    simp only
    split
    · exact same
    · refine fewer rfl (fun _ => Nat.le_refl _) rfl rfl ?_ (by simp [ha])
      intro a l bs t _ hu
      have := drop_le s.dropping n a
      simp only [used, Bool.or_eq_true, Bool.and_eq_true, decide_eq_true_eq] at hu ⊢
      rcases hu with (hu | hu) | hu
      · exact Or.inl (Or.inl hu)
      · left; right; omega
      · exact Or.inr hu
  | check =>
    simp only
    by_cases h0 : s.checks = 0
    · rw [if_pos h0]; exact same
    · rw [if_neg h0]
      unfold validate
      split
      · exact fewer rfl (fun _ => Nat.le_refl _) rfl rfl (fun _ _ _ _ _ h => h) (by simp [ha])
      · exact fewer rfl (fun _ => Nat.le_refl _) rfl rfl (fun _ _ _ _ _ h => h) (by simp)
      · exact fewer rfl (fun _ => Nat.le_refl _) rfl rfl (fun _ _ _ _ _ h => h) (by simp [ha])

/-- Once the terminal is not live it will not be reached. -/
theorem dead_run {net : Net} (hw : Wired net) (hc : GatesOnlyClose net) (hu : JoinsUngated net)
    (es : List Ev) {s : State} (hopen : JoinsOpen net s)
    (h : ¬ Live (world net s) 0 net.terminal) (hs : s.status ≠ .terminated) :
    (run net s es).status ≠ .terminated := by
  induction es generalizing s with
  | nil => exact hs
  | cons e es ih =>
    show (run net (step net s e) es).status ≠ .terminated
    by_cases ha : s.status = .active
    · have hb := step_back hw hc hopen e ha
      exact ih (hopen.step hw hu e) (fun hl => h (hb.1 _ hl)) (fun ht => h (hb.2 ht))
    · rw [step_ended e ha]
      exact ih hopen h hs

/-- The search answers exactly, see `Graph.C14_reachability_partial`. -/
theorem exact_check {net : Net} (hw : Wired net) (hcl : GatesOnlyClose net) (hl : NoLoopIntoJoin net) (s : State)
    (h : Graph.checkReachability (world net s) 0 net.terminal = .ok false) :
    ¬ Live (world net s) 0 net.terminal := by
  obtain ⟨k, hk⟩ := lookup_of_key (List.mem_map_of_mem (f := (·.1)) ((hw.terminal _).2 rfl))
  have hsub : ∀ a b, a ∈ Graph.sources (world net s) b → a ∈ feeders net b := by
    intro a b hab
    unfold Graph.sources at hab
    rw [world_lookup] at hab
    unfold feeders feeders.senders
    cases hb : net.ops.lookup b with
    | none => rw [hb] at hab; simp at hab
    | some k =>
      rw [hb] at hab
      cases k with
      | join bs t =>
        simp only [Option.map_some, look, Graph.Op.sources, List.map_map] at hab
        exact hab
      | unused => simp [look, Graph.Op.sources] at hab
      | buffer cap =>
        simp only [Option.map_some, look, Graph.Op.sources, List.mem_append] at hab
        rcases hab with (hab | hab) | hab
        · obtain ⟨⟨g, o⟩, hg, rfl⟩ := List.mem_map.1 hab
          obtain ⟨bs, t, h1, h2⟩ := mem_gateNodes.1 hg
          exact List.mem_append.2 (Or.inr (List.mem_map.2
            ⟨_, List.mem_filter.2 ⟨h1, by simp [h2]⟩, rfl⟩))
        · obtain ⟨p, hp, rfl⟩ := List.mem_map.1 hab
          obtain ⟨l, bs, t, h1, h2, _⟩ := mem_accessors.1 hp
          exact List.mem_append.2 (Or.inr (List.mem_map.2
            ⟨_, List.mem_filter.2 ⟨h1, by simp [h2]⟩, rfl⟩))
        · unfold inputs at hab
          rw [hb] at hab
          simp only [List.append_nil] at hab
          exact List.mem_append.2 (Or.inl hab)
      | access l bs t =>
        have hab : a ∈ inputs net b := by simpa [look, Graph.Op.sources] using hab
        unfold inputs at hab
        rw [hb] at hab
        cases l with
        | true => exact hab
        | false => simpa using hab
      | _ =>
        have hab : a ∈ inputs net b := by simpa [look, Graph.Op.sources] using hab
        unfold inputs at hab
        rw [hb] at hab
        simpa using hab
  have hc : ∀ m op, (world net s).lookup m = some op →
      Graph.Single 0 op ∨ Graph.NoCycleUp (world net s) m := by
    intro m op hop
    obtain ⟨k', hk', rfl⟩ := world_some hop
    cases k' with
    | join bs t =>
      by_cases h2 : 2 ≤ bs.length
      · right
        have := hl m bs t (mem_of_lookup hk') h2
        exact Subrelation.accessible (fun {a b} h => hsub a b h) this
      · left
        simp only [look, Graph.Single, List.length_map]
        omega
    | buffer cap =>
      refine Or.inl (Or.inr ?_)
      rintro ⟨g, o⟩ hg
      cases o with
      | false => rfl
      | true =>
        obtain ⟨bs, t, h1, _⟩ := mem_gateNodes.1 hg
        exact absurd h1 (hcl g bs t)
    | _ => exact Or.inl trivial
  obtain ⟨b, hb, hiff⟩ := Graph.C14_reachability_partial (world net s) 0 net.terminal (hw.sane s)
    (by rw [world_of s hk]; simp) hc
  rw [h] at hb
  cases hb
  intro hlv
  exact absurd (hiff.2 hlv) (by simp)

end Verif.Flow
