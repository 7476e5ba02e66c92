import Verif.Inject.Lemmas

/- Helper lemmas: the course of one cleanup. -/
namespace Verif.Inject

/-- Everything that belongs to the cleanup `id` is the same. -/
structure Frame (id : Nat) (st st' : State) : Prop where
  contents : (st'.contents.filter fun c => c.1 = id) = st.contents.filter fun c => c.1 = id
  awaiting : id ∈ st'.awaiting ↔ id ∈ st.awaiting
  asked : ∀ t, (id, t) ∈ st'.asked ↔ (id, t) ∈ st.asked
  finished : st'.finished.count id = st.finished.count id
  notified : st'.notified.count id = st.notified.count id

theorem Frame.refl (id : Nat) (st : State) : Frame id st st := ⟨rfl, .rfl, fun _ => .rfl, rfl, rfl⟩

theorem Frame.trans {id : Nat} {a b c : State} (h : Frame id a b) (k : Frame id b c) :
    Frame id a c :=
  ⟨k.contents.trans h.contents, k.awaiting.trans h.awaiting, fun t => (k.asked t).trans (h.asked t),
    k.finished.trans h.finished, k.notified.trans h.notified⟩

theorem filter_other {id id' : Nat} (h : id' ≠ id) (cs : List (Nat × List Nat)) :
    ((cs.filter fun c => c.1 ≠ id').filter fun c => c.1 = id) = cs.filter fun c => c.1 = id := by
  rw [List.filter_filter]
  apply List.filter_congr
  intro c _
  by_cases hc : c.1 = id
  · have : ¬ id = id' := fun e => h e.symm
    simp [hc, this]
  · simp [hc]

theorem filter_same_key (id : Nat) (cs : List (Nat × List Nat)) :
    ((cs.filter fun c => c.1 ≠ id).filter fun c => c.1 = id) = [] := by
  rw [List.filter_filter, List.filter_eq_nil_iff]
  intro c _
  simp only [Bool.and_eq_true, decide_eq_true_eq, not_and]
  intro h h'
  exact h' h

theorem frame_notifyCleaned {id id' : Nat} (h : id' ≠ id) (st : State) (t : Nat) :
    Frame id st (st.notifyCleaned id' t) := by
  have sm := same_notifyCleaned st id' t
  refine ⟨?_, by rw [sm.awaiting], by simp [sm.asked], ?_, by rw [sm.notified]⟩
  · unfold State.notifyCleaned
    split
    · rfl
    · simp only
      split
      · exact filter_other h _
      · induction st.contents with
        | nil => rfl
        | cons c cs ih =>
          simp only [List.map_cons]
          by_cases hc : c.1 = id'
          · have : ¬ c.1 = id := fun e => h (hc.symm.trans e)
            rw [List.filter_cons_of_neg (by simpa [hc] using h), List.filter_cons_of_neg (by simpa using this), ih]
          · rw [if_neg hc]
            by_cases hc' : c.1 = id
            · rw [List.filter_cons_of_pos (by simpa using hc'), List.filter_cons_of_pos (by simpa using hc'), ih]
            · rw [List.filter_cons_of_neg (by simpa using hc'), List.filter_cons_of_neg (by simpa using hc'), ih]
  · unfold State.notifyCleaned
    split
    · rfl
    · simp only
      split
      · simp [List.count_append, h]
      · rfl

theorem frame_cleaned {id id' : Nat} (h : id' ≠ id) (st : State) (t : Nat) :
    Frame id st (st.cleaned id' t) := by
  unfold State.cleaned
  split
  · exact Frame.trans (b := { st with working := st.working.filter fun w => w.task ≠ t })
      ⟨rfl, .rfl, fun _ => .rfl, rfl, rfl⟩ (frame_notifyCleaned h _ t)
  · exact Frame.refl _ _

theorem frame_fold {id id' : Nat} (h : id' ≠ id) (ns : List Nat) : ∀ st : State,
    Frame id st (ns.foldl (fun st n => st.cleaned id' n) st) := by
  induction ns with
  | nil => intro st; exact Frame.refl _ _
  | cons n ns ih => intro st; exact (frame_cleaned h st n).trans (ih _)

theorem frame_cleanup {id id' : Nat} (h : id' ≠ id) (st : State) (s : Nat) (now : List Nat) :
    Frame id st (st.cleanup s id' now) := by
  have hne : ¬ id = id' := fun e => h e.symm
  rw [cleanup_eq]
  split
  · exact ⟨rfl, .rfl, fun _ => .rfl, rfl, by simp [List.count_append, h]⟩
  · refine Frame.trans (b := begun st s id') ?_ (frame_fold h _ _)
    refine ⟨?_, ?_, ?_, rfl, rfl⟩
    · simp only [begun, List.filter_append]
      rw [filter_other h]
      simp [h]
    · simp [begun, hne]
    · intro t
      simp only [begun, List.mem_append, List.mem_map]
      constructor
      · rintro (h' | ⟨n, _, e⟩)
        · exact h'
        · simp only [Prod.mk.injEq] at e
          exact absurd e.1 h
      · exact .inl

/-- Operations that do not touch cleanups. -/
theorem Frame.of {id : Nat} {st st' : State} (h1 : st'.contents = st.contents)
    (h2 : st'.awaiting = st.awaiting) (h3 : st'.asked = st.asked)
    (h4 : st'.finished = st.finished) (h5 : st'.notified = st.notified) : Frame id st st' :=
  ⟨by rw [h1], by rw [h2], by simp [h3], by rw [h4], by rw [h5]⟩

theorem frame_step {id : Nat} (st : State) (op : Op) (h1 : ∀ s now, op ≠ .cleanup s id now)
    (h2 : ∀ t, op ≠ .cleaned id t) (h3 : op ≠ .finalize ∨ id ∉ st.finished) :
    Frame id st (st.step op) := by
  cases op with
  | input s r =>
    simp only [State.step]
    split <;> exact Frame.of rfl rfl rfl rfl rfl
  | execute =>
    show Frame id st st.execute
    unfold State.execute
    split <;> exact Frame.of rfl rfl rfl rfl rfl
  | respond t d =>
    show Frame id st (st.respond t d)
    rcases respond_cases st t d with ⟨_, e⟩ | ⟨w, hw, ht, ⟨_, e⟩ | ⟨_, e⟩⟩ <;> rw [e] <;>
      exact Frame.of rfl rfl rfl rfl rfl
  | dispose t => exact Frame.of rfl rfl rfl rfl rfl
  | finish f =>
    show Frame id st (st.finish f)
    rcases finish_cases st f with e | ⟨s', d, hq, ⟨hno, e⟩ | ⟨_, e⟩ | ⟨_, e⟩⟩ <;> rw [e] <;>
      exact Frame.of rfl rfl rfl rfl rfl
  | cleanup s id' now =>
    have h : id' ≠ id := by rintro rfl; exact h1 s now rfl
    exact frame_cleanup h st s now
  | cleaned id' t =>
    have h : id' ≠ id := by rintro rfl; exact h2 t rfl
    exact frame_cleaned h st t
  | finalize =>
    have h : id ∉ st.finished := by
      rcases h3 with h | h
      · exact absurd rfl h
      · exact h
    show Frame id st st.finalize
    unfold State.finalize
    split
    · exact Frame.refl _ _
    · next id' rest he =>
      have hne : id' ≠ id := by rintro rfl; exact h (by simp [he])
      have hne' : ¬ id = id' := fun e => hne e.symm
      simp only
      split
      · refine ⟨filter_other hne _, by simp [hne'], fun _ => .rfl, ?_, ?_⟩
        · simp [he, hne]
        · simp [List.count_append, hne]
      · refine ⟨filter_other hne _, .rfl, fun _ => .rfl, ?_, rfl⟩
        simp [he, hne]
  | stop s => exact Frame.of rfl rfl rfl rfl rfl

/-- Nothing is known of the cleanup `id` yet. -/
structure Unknown (id : Nat) (st : State) : Prop where
  contents : (st.contents.filter fun c => c.1 = id) = []
  awaiting : id ∉ st.awaiting
  asked : ∀ t, (id, t) ∉ st.asked
  finished : st.finished.count id = 0
  notified : st.notified.count id = 0

theorem Unknown.frame {id : Nat} {st st' : State} (u : Unknown id st) (f : Frame id st st') :
    Unknown id st' :=
  ⟨f.contents.trans u.contents, fun h => u.awaiting (f.awaiting.1 h),
    fun t h => u.asked t ((f.asked t).1 h), f.finished.trans u.finished,
    f.notified.trans u.notified⟩

theorem unknown_step {id : Nat} {st : State} (u : Unknown id st) (op : Op)
    (h : ∀ s now, op ≠ .cleanup s id now) : Unknown id (st.step op) := by
  by_cases h2 : ∃ t, op = .cleaned id t
  · obtain ⟨t, rfl⟩ := h2
    have : st.step (.cleaned id t) = st := by
      show st.cleaned id t = st
      rw [State.cleaned, if_neg (u.asked t)]
    rw [this]; exact u
  · refine u.frame (frame_step st op h (fun t e => h2 ⟨t, e⟩) (.inr ?_))
    intro hm
    have := List.count_pos_iff.2 hm
    have := u.finished
    omega

theorem unknown_run {id : Nat} (ops : List Op) (h : NoCleanup id ops) : Unknown id (run ops) := by
  have gen : ∀ (ops : List Op) (st : State), Unknown id st → NoCleanup id ops →
      Unknown id (ops.foldl State.step st) := by
    intro ops
    induction ops with
    | nil => intro st u _; exact u
    | cons op ops ih =>
      intro st u hn
      exact ih _ (unknown_step u op fun s now e => hn s now (by simp [e]))
        fun s now hm => hn s now (by simp [hm])
  exact gen ops {} ⟨rfl, by simp, by simp, rfl, rfl⟩ h

/-- The cleanup `id` of the tasks `ts` of which `rem` have not reported. -/
structure Going (id : Nat) (ts rem : List Nat) (st : State) : Prop where
  asked : ∀ t, (id, t) ∈ st.asked ↔ t ∈ ts
  busy : rem ≠ [] → (st.contents.filter fun c => c.1 = id) = [(id, rem)] ∧ id ∈ st.awaiting ∧
    st.finished.count id = 0 ∧ st.notified.count id = 0
  done : rem = [] → (st.contents.filter fun c => c.1 = id) = [] ∧
    ((st.finished.count id = 1 ∧ st.notified.count id = 0 ∧ id ∈ st.awaiting) ∨
      (st.finished.count id = 0 ∧ st.notified.count id = 1))

theorem Going.frame {id : Nat} {ts rem : List Nat} {st st' : State} (g : Going id ts rem st)
    (f : Frame id st st') : Going id ts rem st' where
  asked := fun t => (f.asked t).trans (g.asked t)
  busy := by
    intro h
    rw [f.contents, f.awaiting, f.finished, f.notified]
    exact g.busy h
  done := by
    intro h
    rw [f.contents, f.awaiting, f.finished, f.notified]
    exact g.done h

theorem find_of_filter {id : Nat} {cs : List (Nat × List Nat)} {r : List Nat}
    (h : (cs.filter fun c => c.1 = id) = [(id, r)]) :
    cs.find? (fun c => c.1 = id) = some (id, r) := by
  rw [← List.head?_filter, h]; rfl

theorem find_of_filter_nil {id : Nat} {cs : List (Nat × List Nat)}
    (h : (cs.filter fun c => c.1 = id) = []) : cs.find? (fun c => c.1 = id) = none := by
  rw [← List.head?_filter, h]; rfl

theorem filter_map_key {id : Nat} {cs : List (Nat × List Nat)} {r r' : List Nat}
    (h : (cs.filter fun c => c.1 = id) = [(id, r)]) :
    ((cs.map fun c => if c.1 = id then (id, r') else c).filter fun c => c.1 = id) = [(id, r')] := by
  have gen : ∀ cs : List (Nat × List Nat),
      ((cs.map fun c => if c.1 = id then (id, r') else c).filter fun c => c.1 = id) =
        (cs.filter fun c => c.1 = id).map fun _ => (id, r') := by
    intro cs
    induction cs with
    | nil => rfl
    | cons c cs ih =>
      simp only [List.map_cons]
      by_cases hc : c.1 = id
      · rw [if_pos hc, List.filter_cons_of_pos (by simp), List.filter_cons_of_pos (by simpa using hc),
          ih, List.map_cons]
      · rw [if_neg hc, List.filter_cons_of_neg (by simpa using hc),
          List.filter_cons_of_neg (by simpa using hc), ih]
  rw [gen, h]; rfl

theorem going_cleaned {id : Nat} {ts rem : List Nat} {st : State} (g : Going id ts rem st)
    (hs : ∀ t, t ∈ rem → t ∈ ts) (t : Nat) :
    Going id ts (rem.filter fun n => n ≠ t) (st.cleaned id t) := by
  have same : (rem.filter fun n => n ≠ t) = rem → Going id ts (rem.filter fun n => n ≠ t) st := by
    intro e; rw [e]; exact g
  by_cases ht : t ∈ ts
  · have sm := same_cleaned st id t
    have ha : ∀ u, (id, u) ∈ (st.cleaned id t).asked ↔ u ∈ ts := by
      intro u; rw [sm.asked]; exact g.asked u
    unfold State.cleaned at ha ⊢
    rw [if_pos ((g.asked t).2 ht)] at ha ⊢
    by_cases hr : rem = []
    · obtain ⟨hc, hd⟩ := g.done hr
      have hf := find_of_filter_nil hc
      simp only [State.notifyCleaned, hf] at ha ⊢
      subst hr
      refine ⟨ha, fun h => absurd rfl h, fun _ => ⟨hc, hd⟩⟩
    · obtain ⟨hc, haw, hfin, hnot⟩ := g.busy hr
      have hf := find_of_filter hc
      simp only [State.notifyCleaned, hf] at ha ⊢
      by_cases he : (rem.filter fun n => decide (n ≠ t)) = []
      · rw [if_pos (by rw [he]; rfl)] at ha ⊢
        rw [he]
        refine ⟨ha, fun h => absurd rfl h, fun _ => ⟨filter_same_key id _, .inl ⟨?_, hnot, haw⟩⟩⟩
        simp [List.count_append, hfin]
      · have hne : ¬ (rem.filter fun n => decide (n ≠ t)).isEmpty = true := by
          rw [List.isEmpty_iff]; exact he
        rw [if_neg hne] at ha ⊢
        exact ⟨ha, fun _ => ⟨filter_map_key hc, haw, hfin, hnot⟩, fun h => absurd h he⟩
  · have : st.cleaned id t = st := by
      rw [State.cleaned, if_neg fun h => ht ((g.asked t).1 h)]
    rw [this]
    apply same
    rw [List.filter_eq_self]
    intro n hn
    simp only [ne_eq, decide_not, Bool.not_eq_true', decide_eq_false_iff_not]
    rintro rfl
    exact ht (hs _ hn)

theorem going_fold {id : Nat} {ts : List Nat} (ns : List Nat) : ∀ (rem : List Nat) (st : State),
    Going id ts rem st → (∀ t, t ∈ rem → t ∈ ts) →
    Going id ts (rem.filter fun t => t ∉ ns) (ns.foldl (fun st n => st.cleaned id n) st) := by
  induction ns with
  | nil =>
    intro rem st g _
    have : (rem.filter fun t => t ∉ ([] : List Nat)) = rem := by
      rw [List.filter_eq_self]; simp
    rw [this]; exact g
  | cons n ns ih =>
    intro rem st g hs
    have h := ih _ _ (going_cleaned g hs n) (fun t ht => hs t (List.mem_filter.1 ht).1)
    rw [List.filter_filter] at h
    have e : (rem.filter fun t => t ∉ n :: ns) =
        rem.filter fun a => (decide (a ∉ ns)) && (decide (a ≠ n)) := by
      apply List.filter_congr
      intro a _
      simp only [List.mem_cons, not_or, Bool.decide_and, ne_eq]
      rw [Bool.and_comm]
    rw [e]; exact h

theorem going_finalize {id : Nat} {ts rem : List Nat} {st : State} (g : Going id ts rem st) :
    Going id ts rem st.finalize := by
  by_cases h : st.finished.head? = some id
  · cases hf : st.finished with
    | nil => rw [hf] at h; cases h
    | cons a rest =>
      rw [hf] at h
      simp only [List.head?_cons, Option.some.injEq] at h
      subst h
      have hcnt : st.finished.count a ≠ 0 := by rw [hf]; simp
      by_cases hr : rem = []
      · obtain ⟨hc, hd⟩ := g.done hr
        rcases hd with ⟨h1, h2, h3⟩ | ⟨h1, _⟩
        · have e : st.finalize =
              { st with
                finished := rest
                contents := st.contents.filter fun c => c.1 ≠ a
                awaiting := st.awaiting.filter fun i => i ≠ a
                notified := st.notified ++ [a] } := by
            simp [State.finalize, hf, h3]
          rw [e]
          refine ⟨g.asked, fun h => absurd hr h, fun _ => ⟨filter_same_key a _, .inr ⟨?_, ?_⟩⟩⟩
          · rw [hf] at h1
            simpa using h1
          · simp [List.count_append, h2]
        · exact absurd h1 hcnt
      · exact absurd (g.busy hr).2.2.1 hcnt
  · unfold State.finalize
    split
    · exact g
    · next id' rest he =>
      have hne : id' ≠ id := by rintro rfl; exact h (by simp [he])
      have hne' : ¬ id = id' := fun e => hne e.symm
      apply g.frame
      simp only
      split
      · refine ⟨filter_other hne _, by simp [hne'], fun _ => .rfl, ?_, ?_⟩
        · simp [he, hne]
        · simp [List.count_append, hne]
      · refine ⟨filter_other hne _, .rfl, fun _ => .rfl, ?_, rfl⟩
        simp [he, hne]

theorem going_run {id : Nat} {ts : List Nat} : ∀ (ops : List Op) (rem : List Nat) (st : State),
    Going id ts rem st → (∀ t, t ∈ rem → t ∈ ts) → NoCleanup id ops →
    Going id ts (rem.filter fun t => Op.cleaned id t ∉ ops) (ops.foldl State.step st) := by
  intro ops
  induction ops with
  | nil =>
    intro rem st g _ _
    have : (rem.filter fun t => Op.cleaned id t ∉ ([] : List Op)) = rem := by
      rw [List.filter_eq_self]; simp
    rw [this]; exact g
  | cons op ops ih =>
    intro rem st g hs hn
    have hn' : NoCleanup id ops := fun s now hm => hn s now (by simp [hm])
    by_cases h : ∃ t, op = .cleaned id t
    · obtain ⟨t, rfl⟩ := h
      have h := ih _ _ (going_cleaned g hs t) (fun t ht => hs t (List.mem_filter.1 ht).1) hn'
      rw [List.filter_filter] at h
      have e : (rem.filter fun u => Op.cleaned id u ∉ Op.cleaned id t :: ops) =
          rem.filter fun a => (decide (Op.cleaned id a ∉ ops)) && (decide (a ≠ t)) := by
        apply List.filter_congr
        intro a _
        simp only [List.mem_cons, not_or, Bool.decide_and, ne_eq, Op.cleaned.injEq, true_and]
        rw [Bool.and_comm]
      rw [e]; exact h
    · have e : (rem.filter fun u => Op.cleaned id u ∉ op :: ops) =
          rem.filter fun u => Op.cleaned id u ∉ ops := by
        apply List.filter_congr
        intro a _
        have : ¬ Op.cleaned id a = op := fun e => h ⟨a, e.symm⟩
        simp [this]
      rw [e]
      apply ih _ _ _ hs hn'
      by_cases hfz : op = .finalize
      · subst hfz; exact going_finalize g
      · exact g.frame (frame_step st op (fun s now e => hn s now (by simp [e]))
          (fun t e => h ⟨t, e⟩) (.inl hfz))

/-- The beginning of a cleanup. -/
theorem going_cleanup {id : Nat} {st : State} (u : Unknown id st) (s : Nat) (now : List Nat) :
    Going id ((st.list.filter fun i => i.session = s).map (·.task))
      (((st.list.filter fun i => i.session = s).map (·.task)).filter fun t => t ∉ now)
      (st.cleanup s id now) := by
  rw [cleanup_eq]
  split
  · next h =>
    rw [List.isEmpty_iff] at h
    rw [h]
    refine ⟨?_, fun h => absurd rfl h, fun _ => ⟨u.contents, .inr ⟨u.finished, ?_⟩⟩⟩
    · intro t
      simp [u.asked t]
    · simp [List.count_append, u.notified]
  · next h =>
    rw [List.isEmpty_iff] at h
    have g : Going id ((st.list.filter fun i => i.session = s).map (·.task))
        ((st.list.filter fun i => i.session = s).map (·.task)) (begun st s id) := by
      refine ⟨?_, fun _ => ⟨?_, ?_, u.finished, u.notified⟩, fun h' => absurd h' h⟩
      · intro t
        simp only [begun, List.mem_append, u.asked t, false_or]
        rw [List.mem_map]
        constructor
        · rintro ⟨n, hn, e⟩
          simp only [Prod.mk.injEq, true_and] at e
          exact e ▸ hn
        · intro ht; exact ⟨t, ht, rfl⟩
      · simp only [begun, List.filter_append]
        rw [filter_same_key]
        simp
      · simp [begun]
    have h2 := going_fold (((st.list.filter fun i => i.session = s).map (·.task)).filter
      fun n => n ∈ now) _ _ g (fun t ht => ht)
    have e : (((st.list.filter fun i => i.session = s).map (·.task)).filter fun t => t ∉ now) =
        ((st.list.filter fun i => i.session = s).map (·.task)).filter fun t =>
          t ∉ (((st.list.filter fun i => i.session = s).map (·.task)).filter fun n => n ∈ now) := by
      apply List.filter_congr
      intro a ha
      apply decide_eq_decide.2
      rw [List.mem_filter]
      simp [ha]
    rw [e]; exact h2

end Verif.Inject
