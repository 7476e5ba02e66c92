import Verif.Keys.Access

/- Helper lemmas about the notices and about runs in which every drop is one step. -/
namespace Verif.Keys

theorem deepClone_ne (st : State) (l : Nat) (ls : List Nat) {L : Life}
    (h : st.lives[l]? = some L) : (st.deepClone (l :: ls)).2 ≠ [] := by
  simp [State.deepClone, h]

theorem access_ne {bs : List Nat} {st : State} {h} (i : Inv bs.length st h) (hb : bs ≠ [])
    (s : Nat) : (st.access bs s).2 ≠ [] := by
  cases hf : st.stored.find? fun p => p.1 = s with
  | some p =>
    obtain ⟨hpm, _⟩ := find_stored hf
    obtain ⟨t, hk⟩ := i.kept p hpm
    obtain ⟨q, ids⟩ := p
    simp only [State.access, hf]
    cases ids with
    | nil => exact absurd (List.eq_nil_of_length_eq_zero hk.len.symm) hb
    | cons l ls =>
      obtain ⟨L, hL, _⟩ := hk.life l (by simp)
      exact deepClone_ne st l ls hL
  | none =>
    simp only [State.access, hf]
    rw [makeTags_eq _ _ _ _ _ (by simp)]
    cases bs with
    | nil => exact absurd rfl hb
    | cons b bs =>
      simp only [List.length_cons, List.range'_succ]
      exact deepClone_ne _ _ _ (L := ⟨s, b, st.trackers.length, 1, false, true⟩) (by simp)

theorem clone_other (st : State) (l : Nat) : (st.clone l).stored = st.stored ∧
    (st.clone l).channel = st.channel ∧ (st.clone l).seen = st.seen := by
  unfold State.clone
  split
  · split <;> exact ⟨rfl, rfl, rfl⟩
  · exact ⟨rfl, rfl, rfl⟩

theorem finish_other (st : State) (l : Nat) : (st.finish l).stored = st.stored ∧
    (st.finish l).channel = st.channel ∧ (st.finish l).seen = st.seen := by
  unfold State.finish
  split
  · split <;> exact ⟨rfl, rfl, rfl⟩
  · exact ⟨rfl, rfl, rfl⟩

theorem drop_other (st : State) (l : Nat) : (st.drop l).stored = st.stored ∧
    (∃ c, (st.drop l).channel = st.channel ++ c) ∧ (st.drop l).seen = st.seen := by
  unfold State.drop
  split
  · split
    · split
      · refine ⟨by rw [notify_stored], ?_, by rw [notify_seen]⟩
        unfold State.notify
        split
        · exact ⟨_, rfl⟩
        · exact ⟨[], by simp⟩
      · exact ⟨rfl, ⟨[], by simp⟩, rfl⟩
    · exact ⟨rfl, ⟨[], by simp⟩, rfl⟩
  · exact ⟨rfl, ⟨[], by simp⟩, rfl⟩

/-- The tracker of a user's life cycle is in use as long as the key is stored. -/
theorem user_in_use {n : Nat} {st : State} {h} (i : Inv n st h) (hn : n ≠ 0) {L : Life}
    (hL : L ∈ st.lives) (ha : L.alive = true) (hu : L.kept = false) (o : Own n st L.session) :
    st.count L.tracker > 1 := by
  obtain ⟨ids, t, hm, hk, ht⟩ := o L hL rfl
  have := count_split i hk
  have hp : 0 < st.lives.countP fun M => decide (M.tracker = t) && (M.alive && !M.kept) :=
    List.countP_pos_iff.2 ⟨L, hL, by simp [ht, ha, hu]⟩
  rw [ht]
  omega

/-- What dropping a held key sends. -/
theorem drop_channel {n : Nat} {st : State} {h} (i : Inv n st h) (hn : n ≠ 0) {l s : Nat}
    (hh : (l, s) ∈ h) (o : Own n st s) :
    ∃ L, st.lives[l]? = some L ∧ L.session = s ∧
    (st.drop l).channel = st.channel ++
      (if (h.eraseP fun p => decide (p.1 = l)).any (fun p => decide (p.1 = l)) then []
       else [(s, L.buffer)]) := by
  obtain ⟨L, hL, hs⟩ := i.sess (l, s) hh
  simp only at hL hs
  refine ⟨L, hL, hs, ?_⟩
  have hm := List.mem_of_getElem? hL
  have hpos : 0 < h.countP fun q => decide (q.1 = l) :=
    List.countP_pos_iff.2 ⟨_, hh, by simp⟩
  have hc := i.hand l L hL
  cases hk : L.kept with
  | true => rw [hk] at hc; simp only [if_true] at hc; omega
  | false =>
    rw [hk] at hc
    simp only [Bool.false_eq_true, if_false] at hc
    have hp : L.handles > 0 := by omega
    have he := countP_eraseP_same (fun q : Nat × Nat => decide (q.1 = l)) h
    have hany : (h.eraseP fun p => decide (p.1 = l)).any (fun p => decide (p.1 = l)) =
        decide (L.handles ≠ 1) := by
      rw [Bool.eq_iff_iff, List.any_eq_true]
      have : (∃ x, x ∈ (h.eraseP fun p => decide (p.1 = l)) ∧ decide (x.1 = l) = true) ↔
          0 < (h.eraseP fun p => decide (p.1 = l)).countP fun p => decide (p.1 = l) :=
        List.countP_pos_iff.symm
      rw [this, decide_eq_true_eq]
      omega
    rw [hany]
    by_cases h1 : L.handles = 1
    · have hc1 : L.handles > 0 ∧ (!L.kept) = true := ⟨hp, by simp [hk]⟩
      simp only [State.drop, hL]
      rw [if_pos hc1, if_pos h1]
      have hin : st.count L.tracker > 1 :=
        user_in_use i hn hm (by simp [Life.alive, hp]) hk (hs ▸ o)
      have : ({ st with lives := st.lives.set l { L with handles := 0, dying := true } } : State).isInUse L
          = true := by
        simp only [State.isInUse, State.count] at hin ⊢
        simpa using hin
      simp only [State.notify, this, if_true]
      simp [h1, hs]
    · have hc1 : L.handles > 0 ∧ (!L.kept) = true := ⟨hp, by simp [hk]⟩
      simp only [State.drop, hL]
      rw [if_pos hc1, if_neg h1]
      simp [h1]

theorem drop_none {n : Nat} {st : State} {h} (i : Inv n st h) {l : Nat}
    (hh : ∀ p, p ∈ h → p.1 ≠ l) : st.drop l = st := by
  cases hl : st.lives[l]? with
  | none => simp [State.drop, hl]
  | some L =>
    have hc := i.hand l L hl
    have h0 : h.countP (fun p => decide (p.1 = l)) = 0 := by
      rw [List.countP_eq_zero]; intro p hp; simpa using hh p hp
    rw [h0] at hc
    have hno : ¬ (L.handles > 0 ∧ (!L.kept) = true) := by
      rintro ⟨h1, h2⟩
      cases hk : L.kept with
      | true => simp [hk] at h2
      | false => rw [hk] at hc; simp only [Bool.false_eq_true, if_false] at hc; omega
    simp only [State.drop, hl, if_neg hno]

/-- Dropping in one step leaves nothing half dropped. -/
def Calm (st : State) : Prop := ∀ L, L ∈ st.lives → L.dying = false

theorem calm_drop {st : State} (h : Calm st) (l : Nat) : Calm ((st.drop l).finish l) := by
  cases hl : st.lives[l]? with
  | none => simpa [State.drop, State.finish, hl] using h
  | some L =>
    have hb := (List.getElem?_eq_some_iff.1 hl).1
    by_cases hc : L.handles > 0 ∧ (!L.kept) = true
    · by_cases h1 : L.handles = 1
      · simp only [State.drop, hl]
        rw [if_pos hc, if_pos h1]
        simp only [State.finish, notify_lives, List.getElem?_set_self hb, if_true]
        intro M hM
        simp only [State.setCount, List.set_set] at hM
        rcases mem_set_cases hM with rfl | hM
        · rfl
        · exact h M hM
      · simp only [State.drop, hl]
        rw [if_pos hc, if_neg h1]
        have hd := h L (List.mem_of_getElem? hl)
        simp only [State.finish, List.getElem?_set_self hb, hd, Bool.false_eq_true, if_false]
        intro M hM
        rcases mem_set_cases hM with rfl | hM
        · rfl
        · exact h M hM
    · simp only [State.drop, hl]
      rw [if_neg hc]
      have hd := h L (List.mem_of_getElem? hl)
      simp only [State.finish, hl, hd, Bool.false_eq_true, if_false]
      exact h

theorem calm_makeTags (s t : Nat) (k : Bool) : ∀ (bs : List Nat) (st : State), Calm st →
    Calm (st.makeTags s t k bs).1 := by
  intro bs
  induction bs with
  | nil => intro st h; exact h
  | cons b bs ih =>
    intro st h
    apply ih
    intro L hL
    simp only [State.setCount, List.mem_append, List.mem_singleton] at hL
    rcases hL with hL | rfl
    · exact h L hL
    · rfl

theorem calm_deepClone : ∀ (ls : List Nat) (st : State), Calm st → Calm (st.deepClone ls).1 := by
  intro ls
  induction ls with
  | nil => intro st h; exact h
  | cons l ls ih =>
    intro st h
    cases hl : st.lives[l]? with
    | none => simp only [State.deepClone, hl]; exact ih st h
    | some K =>
      simp only [State.deepClone, hl]
      apply ih
      intro L hL
      simp only [State.setCount, List.mem_append, List.mem_singleton] at hL
      rcases hL with hL | rfl
      · exact h L hL
      · rfl

theorem calm_access (bs : List Nat) {st : State} (h : Calm st) (s : Nat) :
    Calm (st.access bs s).1 := by
  unfold State.access
  split
  · exact calm_deepClone _ _ h
  · apply calm_deepClone
    exact calm_makeTags _ _ _ _ _ h

theorem calm_release : ∀ (ls : List Nat) (st : State), Calm st → Calm (st.release ls) := by
  intro ls
  induction ls with
  | nil => intro st h; exact h
  | cons l ls ih =>
    intro st h
    cases hl : st.lives[l]? with
    | none => simp only [State.release, hl]; exact ih st h
    | some K =>
      rw [release_cons st l ls hl]
      apply ih
      intro L hL
      rw [release1_lives] at hL
      rcases mem_set_cases hL with rfl | hL
      · exact h K (List.mem_of_getElem? hl)
      · exact h L hL

theorem calm_act (bs : List Nat) {st : State} (h : Calm st) (a : Act) :
    Calm (a.ops.foldl (State.step bs) st) := by
  cases a with
  | access s => exact calm_access bs h s
  | clone l =>
    show Calm (st.clone l)
    unfold State.clone
    split
    · rename_i K hK
      split
      · intro L hL
        rcases mem_set_cases hL with rfl | hL
        · exact h K (List.mem_of_getElem? hK)
        · exact h L hL
      · exact h
    · exact h
  | drop l => exact calm_drop h l
  | cleanup s b =>
    show Calm (st.cleanup s b)
    unfold State.cleanup
    split
    · split
      · exact calm_release _ _ h
      · exact h
    · exact h
  | receive =>
    show Calm st.receive
    unfold State.receive
    split <;> exact h

theorem stored_step (bs : List Nat) {st : State} {h} (i : Inv bs.length st h) (op : Op) {s : Nat}
    (hop : op ≠ .cleanup s true) {ids} (hm : (s, ids) ∈ st.stored) :
    (s, ids) ∈ (st.step bs op).stored := by
  cases op with
  | access s' => exact (access_inv bs i s').2.2.2.1 _ hm
  | clone l => show _ ∈ (st.clone l).stored; rw [(clone_other st l).1]; exact hm
  | drop l => show _ ∈ (st.drop l).stored; rw [(drop_other st l).1]; exact hm
  | finish l => show _ ∈ (st.finish l).stored; rw [(finish_other st l).1]; exact hm
  | cleanup s' b =>
    apply (cleanup_inv i s' b).2.2.1 _ hm
    rintro rfl rfl
    exact hop rfl
  | receive =>
    show _ ∈ st.receive.stored
    unfold State.receive
    split <;> exact hm

theorem run_append (bs : List Nat) (xs ys : List Op) :
    run bs (xs ++ ys) = ys.foldl (State.step bs) (run bs xs) := by
  simp [run, List.foldl_append]

theorem handsFrom_append (bs : List Nat) : ∀ (xs ys : List Op) (st : State) (h : List (Nat × Nat)),
    handsFrom bs st h (xs ++ ys) =
      handsFrom bs (xs.foldl (State.step bs) st) (handsFrom bs st h xs) ys := by
  intro xs
  induction xs with
  | nil => intro ys st h; rfl
  | cons x xs ih => intro ys st h; exact ih ys _ _

theorem hands_append (bs : List Nat) (xs : List Op) (op : Op) :
    hands bs (xs ++ [op]) = handsStep bs (run bs xs) (hands bs xs) op := by
  simp [hands, handsFrom_append, handsFrom, run]

/-- An access leaves a stored key until the session ends. -/
theorem stored_of_access (bs : List Nat) {s : Nat} (ops : List Op) (he : NoEnd s ops)
    (ha : Op.access s ∈ ops) : ∃ ids, (s, ids) ∈ (run bs ops).stored := by
  have gen : ∀ (ops : List Op) (st : State) (h : List (Nat × Nat)), Inv bs.length st h →
      NoEnd s ops → ((∃ ids, (s, ids) ∈ st.stored) ∨ Op.access s ∈ ops) →
      ∃ ids, (s, ids) ∈ (ops.foldl (State.step bs) st).stored := by
    intro ops
    induction ops with
    | nil =>
      intro st h _ _ hor
      rcases hor with hor | hor
      · exact hor
      · cases hor
    | cons op ops ih =>
      intro st h i he hor
      have hop : op ≠ .cleanup s true := by intro e; exact he (by simp [e])
      apply ih _ _ (step_inv i op).1 (by intro hm; exact he (by simp [hm]))
      rcases hor with ⟨ids, hm⟩ | hor
      · exact .inl ⟨ids, stored_step bs i op hop hm⟩
      · rcases List.mem_cons.1 hor with rfl | hor
        · exact .inl (access_inv bs i s).2.2.1
        · exact .inr hor
  exact gen ops {} [] (inv_init _) he (.inr ha)

/-- The usage check with one buffer. -/
theorem usage_one {st : State} {h} (i : Inv 1 st h) {s : Nat} (o : Own 1 st s) :
    st.usage s = true ↔ (∃ p, p ∈ h ∧ p.2 = s) ∨ BeingDropped st s := by
  cases hf : st.stored.find? fun p => p.1 = s with
  | some p =>
    obtain ⟨hpm, hps⟩ := find_stored hf
    obtain ⟨q, ids⟩ := p
    simp only at hps
    subst hps
    obtain ⟨t, hk⟩ := i.kept _ hpm
    rw [usage_eq i hpm hk, ← users_iff i (by decide) hk o hpm]
    rw [count_split i hk, Bool.and_eq_true, decide_eq_true_eq, decide_eq_true_eq]
    omega
  | none =>
    have hno : ∀ L, L ∈ st.lives → L.session ≠ s := by
      intro L hL hs
      obtain ⟨ids, t, hm, _⟩ := o L hL hs
      rw [List.find?_eq_none] at hf
      exact hf _ hm (by simp)
    simp only [State.usage, hf, Bool.false_eq_true, false_iff, not_or]
    constructor
    · rintro ⟨p, hp, hps⟩
      obtain ⟨L, hL, hs⟩ := i.sess p hp
      exact hno L (List.mem_of_getElem? hL) (hs.trans hps)
    · rintro ⟨L, hL, hs, _⟩
      exact hno L hL hs

/-- The session will be looked at again, or has been since the last key went away. -/
def Told (st : State) (s : Nat) : Prop :=
  (∃ b, (s, b) ∈ st.channel) ∨ lastSeen st s = some false

theorem Told.grow {st st' : State} {s : Nat} (h : Told st s)
    (hc : ∃ c, st'.channel = st.channel ++ c) (hs : st'.seen = st.seen) : Told st' s := by
  obtain ⟨c, hc⟩ := hc
  rcases h with ⟨b, hb⟩ | h
  · exact .inl ⟨b, by rw [hc]; simp [hb]⟩
  · right; simpa [lastSeen, hs] using h

theorem told_receive {st : State} {h} (i : Inv 1 st h) {s : Nat} (o : Own 1 st s)
    (hc : Calm st) (hno : ¬ ∃ p, p ∈ h ∧ p.2 = s) (ht : Told st s) : Told st.receive s := by
  cases hch : st.channel with
  | nil => simpa [State.receive, hch] using ht
  | cons m rest =>
    obtain ⟨a, b⟩ := m
    have e : st.receive = { st with channel := rest, seen := st.seen ++ [(a, st.usage a)] } := by
      simp [State.receive, hch]
    rw [e]
    by_cases ha : a = s
    · subst ha
      right
      have hu : st.usage a = false := by
        cases hu : st.usage a with
        | false => rfl
        | true =>
          rcases (usage_one i o).1 hu with h' | ⟨L, hL, _, hd⟩
          · exact absurd h' hno
          · rw [hc L hL] at hd; cases hd
      simp [lastSeen, List.filter_append, hu]
    · rcases ht with ⟨c, hc'⟩ | ht
      · rw [hch] at hc'
        rcases List.mem_cons.1 hc' with e' | hc'
        · cases e'; exact absurd rfl ha
        · exact .inl ⟨c, hc'⟩
      · right
        simpa [lastSeen, List.filter_append, ha] using ht

theorem told_drop {st : State} {h} (i : Inv 1 st h) {s l : Nat} (o : Own 1 st s)
    (ht : (¬ ∃ p, p ∈ h ∧ p.2 = s) → Told st s)
    (hno : ¬ ∃ p, p ∈ (h.eraseP fun p => decide (p.1 = l)) ∧ p.2 = s) : Told (st.drop l) s := by
  by_cases hheld : ∃ p, p ∈ h ∧ p.2 = s
  · obtain ⟨p, hp, hps⟩ := hheld
    by_cases hpl : p.1 = l
    · obtain ⟨a, b⟩ := p
      simp only at hpl hps
      subst hpl hps
      obtain ⟨L, hL, hs, hch⟩ := drop_channel i (by decide) hp o
      left
      refine ⟨L.buffer, ?_⟩
      rw [hch]
      have : (h.eraseP fun p => decide (p.1 = a)).any (fun p => decide (p.1 = a)) = false := by
        rw [List.any_eq_false]
        intro q hq hqa
        have hqa' : q.1 = a := by simpa using hqa
        apply hno
        refine ⟨q, hq, ?_⟩
        obtain ⟨M, hM, hMs⟩ := i.sess q (List.mem_of_mem_eraseP hq)
        rw [hqa', hL] at hM
        cases hM
        exact hMs.symm.trans hs
      simp [this]
    · exfalso
      apply hno
      refine ⟨p, ?_, hps⟩
      rw [List.mem_eraseP_of_neg (by simpa using hpl)]
      exact hp
  · exact (ht hheld).grow (drop_other st l).2.1 (drop_other st l).2.2

/-- The state after one more action. -/
theorem act_told {b : Nat} {st : State} {h} (i : Inv 1 st h) {s : Nat} (o : Own 1 st s)
    (hc : Calm st) (a : Act) (hend : a ≠ .cleanup s true)
    (ht : (∃ ids, (s, ids) ∈ st.stored) → (¬ ∃ p, p ∈ h ∧ p.2 = s) → Told st s) :
    (∃ ids, (s, ids) ∈ (a.ops.foldl (State.step [b]) st).stored) →
    (¬ ∃ p, p ∈ (handsFrom [b] st h a.ops) ∧ p.2 = s) →
    Told (a.ops.foldl (State.step [b]) st) s := by
  intro hst hno
  cases a with
  | access s' =>
    have hi := access_inv [b] i s'
    have hno' : ¬ ∃ p, p ∈ h ++ (st.access [b] s').2.map (fun l => (l, s')) ∧ p.2 = s := hno
    by_cases hs : s' = s
    · subst hs
      exfalso
      obtain ⟨l, hl⟩ := List.exists_mem_of_ne_nil _ (access_ne (bs := [b]) i (by simp) s')
      exact hno' ⟨(l, s'), by simp [hl], rfl⟩
    · have hst' : ∃ ids, (s, ids) ∈ st.stored := by
        obtain ⟨ids, hm⟩ := hst
        change (s, ids) ∈ (st.access [b] s').1.stored at hm
        refine ⟨ids, ?_⟩
        cases hf : st.stored.find? fun p => p.1 = s' with
        | some p =>
          obtain ⟨hpm, _⟩ := find_stored hf
          obtain ⟨t, hk⟩ := i.kept p hpm
          obtain ⟨q, ids'⟩ := p
          simp only [State.access, hf] at hm
          rw [deepClone_eq t _ _ hk.rng (fun l hl => by
            obtain ⟨L, hL, _, h2, _⟩ := hk.life l hl; exact ⟨L, hL, h2⟩)] at hm
          exact hm
        | none =>
          simp only [State.access, hf] at hm
          rw [makeTags_eq _ _ _ _ _ (by simp)] at hm
          rw [deepClone_eq st.trackers.length _ _ (by simp) (by
            intro l hl
            simp at hl
            subst hl
            exact ⟨⟨s', b, st.trackers.length, 1, false, true⟩, by simp, rfl⟩)] at hm
          simp only [State.setCount, List.mem_append, List.mem_singleton, Prod.mk.injEq] at hm
          rcases hm with hm | hm
          · exact hm
          · exact absurd hm.1.symm hs
      have hno0 : ¬ ∃ p, p ∈ h ∧ p.2 = s := by
        rintro ⟨p, hp, hps⟩
        exact hno' ⟨p, by simp [hp], hps⟩
      exact (ht hst' hno0).grow ⟨[], by rw [List.append_nil]; exact hi.2.2.2.2.1⟩ hi.2.2.2.2.2
  | clone l =>
    have e := clone_other st l
    have hst' : ∃ ids, (s, ids) ∈ st.stored := e.1 ▸ hst
    have hno0 : ¬ ∃ p, p ∈ h ∧ p.2 = s := by
      rintro ⟨p, hp, hps⟩
      have hno' : ¬ ∃ p, p ∈ h ++ (h.find? fun p => p.1 = l).toList ∧ p.2 = s := hno
      exact hno' ⟨p, by simp [hp], hps⟩
    exact (ht hst' hno0).grow ⟨[], by rw [List.append_nil]; exact e.2.1⟩ e.2.2
  | drop l =>
    have hno' : ¬ ∃ p, p ∈ (h.eraseP fun p => decide (p.1 = l)) ∧ p.2 = s := hno
    have e := drop_other st l
    have e' := finish_other (st.drop l) l
    have hst' : ∃ ids, (s, ids) ∈ st.stored := by
      obtain ⟨ids, hm⟩ := hst
      change (s, ids) ∈ ((st.drop l).finish l).stored at hm
      rw [e'.1, e.1] at hm
      exact ⟨ids, hm⟩
    exact (told_drop i o (ht hst') hno').grow ⟨[], by rw [List.append_nil]; exact e'.2.1⟩ e'.2.2
  | cleanup s' c =>
    have hi := cleanup_inv i s' c
    have hst' : ∃ ids, (s, ids) ∈ st.stored := by
      obtain ⟨ids, hm⟩ := hst
      change (s, ids) ∈ (st.cleanup s' c).stored at hm
      refine ⟨ids, ?_⟩
      unfold State.cleanup at hm
      split at hm
      · split at hm
        · rename_i ids' hf
          obtain ⟨hpm, _⟩ := find_stored hf
          obtain ⟨t, hk⟩ := i.kept _ hpm
          let st0 : State := { st with stored := st.stored.filter fun p => p.1 ≠ s' }
          have i0 : Core st0 h := i.toCore.congr rfl rfl
          have := (release_all (n := 1) (by decide) _ ids' st0 i0 hk.nodup (by
            intro l hl
            obtain ⟨L, hL, h1, h2, h3, h4, h5⟩ := hk.life l hl
            exact ⟨L, hL, h1, h3, h4, h5⟩)).2.2.1
          have hm' : (s, ids) ∈ (st0.release ids').stored := hm
          rw [this] at hm'
          exact (List.mem_filter.1 hm').1
        · exact hm
      · exact hm
    obtain ⟨c', hc', _⟩ := hi.2.2.2.2
    exact (ht hst' hno).grow ⟨c', hc'⟩ hi.2.2.2.1
  | receive =>
    have hst' : ∃ ids, (s, ids) ∈ st.stored := by
      obtain ⟨ids, hm⟩ := hst
      change (s, ids) ∈ st.receive.stored at hm
      refine ⟨ids, ?_⟩
      unfold State.receive at hm
      split at hm <;> exact hm
    exact told_receive i o hc hno (ht hst' hno)

theorem noEnd_acts {s : Nat} {acts : List Act} (h : NoEnd s (acts.flatMap Act.ops)) :
    Act.cleanup s true ∉ acts := by
  intro hm
  apply h
  rw [List.mem_flatMap]
  exact ⟨_, hm, by simp [Act.ops]⟩

/-- Everything about a run in which every drop is one step. -/
theorem acts_told (b s : Nat) : ∀ (acts : List Act) (st : State) (h : List (Nat × Nat)),
    Inv 1 st h → Own 1 st s → Calm st → Act.cleanup s true ∉ acts →
    ((∃ ids, (s, ids) ∈ st.stored) → (¬ ∃ p, p ∈ h ∧ p.2 = s) → Told st s) →
    Calm ((acts.flatMap Act.ops).foldl (State.step [b]) st) ∧
    ((∃ ids, (s, ids) ∈ ((acts.flatMap Act.ops).foldl (State.step [b]) st).stored) →
      (¬ ∃ p, p ∈ handsFrom [b] st h (acts.flatMap Act.ops) ∧ p.2 = s) →
      Told ((acts.flatMap Act.ops).foldl (State.step [b]) st) s) := by
  have steps : ∀ (ops : List Op) (st : State) (h : List (Nat × Nat)), Inv 1 st h →
      Own 1 st s → Op.cleanup s true ∉ ops →
      Inv 1 (ops.foldl (State.step [b]) st) (handsFrom [b] st h ops) ∧
      Own 1 (ops.foldl (State.step [b]) st) s := by
    intro ops
    induction ops with
    | nil => intro st h i o _; exact ⟨i, o⟩
    | cons op ops ih =>
      intro st h i o hn
      obtain ⟨i', o'⟩ := step_inv (bs := [b]) i op
      exact ih _ _ i' (o' s (by intro e; exact hn (by simp [e])) o) (by intro hm; exact hn (by simp [hm]))
  intro acts
  induction acts with
  | nil => intro st h _ _ c _ ht; exact ⟨c, ht⟩
  | cons a acts ih =>
    intro st h i o c hn ht
    rw [List.flatMap_cons, List.foldl_append, handsFrom_append]
    have hna : a ≠ .cleanup s true := by intro e; exact hn (by simp [e])
    obtain ⟨i', o'⟩ := steps a.ops st h i o (by
      cases a <;> simp_all [Act.ops])
    exact ih _ _ i' o' (calm_act [b] c a) (by intro hm; exact hn (by simp [hm]))
      (act_told i o c a hna ht)

end Verif.Keys
