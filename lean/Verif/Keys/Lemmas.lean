import Verif.Keys.Spec

set_option linter.unusedSimpArgs false
set_option linter.unusedVariables false

namespace Verif.Keys

def Life.alive (L : Life) : Bool := decide (L.handles > 0) || L.dying

/-- Counting after one element was replaced. -/
theorem countP_replace {α : Type} (p : α → Bool) {xs : List α} {i : Nat} {x : α}
    (h : xs[i]? = some x) (y : α) :
    (xs.set i y).countP p + (if p x then 1 else 0) = xs.countP p + (if p y then 1 else 0) := by
  induction xs generalizing i with
  | nil => cases h
  | cons z xs ih =>
    cases i with
    | zero =>
      simp only [List.getElem?_cons_zero, Option.some.injEq] at h
      subst h
      simp only [List.set_cons_zero, List.countP_cons]
      omega
    | succ i =>
      simp only [List.getElem?_cons_succ] at h
      have := ih h
      simp only [List.set_cons_succ, List.countP_cons]
      omega

theorem mem_set_cases {α : Type} {xs : List α} {i : Nat} {y z : α} (h : z ∈ xs.set i y) :
    z = y ∨ z ∈ xs := by
  induction xs generalizing i with
  | nil => cases h
  | cons a xs ih =>
    cases i with
    | zero =>
      simp only [List.set_cons_zero, List.mem_cons] at h ⊢
      rcases h with h | h
      · exact .inl h
      · exact .inr (.inr h)
    | succ i =>
      simp only [List.set_cons_succ, List.mem_cons] at h ⊢
      rcases h with h | h
      · exact .inr (.inl h)
      · rcases ih h with h | h
        · exact .inl h
        · exact .inr (.inr h)

theorem count_setCount (st : State) (t n u : Nat) (h : t < st.trackers.length) :
    (st.setCount t n).count u = if u = t then n else st.count u := by
  simp only [State.setCount, State.count, List.getD_eq_getElem?_getD, List.getElem?_set]
  by_cases hu : t = u
  · subst hu; simp [h]
  · have : ¬ u = t := fun h => hu h.symm
    simp [hu, this]

/-- The facts about counts and hands that hold all the time. -/
structure Core (st : State) (h : List (Nat × Nat)) : Prop where
  cnt : ∀ t, st.count t = st.lives.countP fun L => decide (L.tracker = t) && L.alive
  rng : ∀ L, L ∈ st.lives → L.tracker < st.trackers.length
  hand : ∀ l L, st.lives[l]? = some L →
    h.countP (fun p => decide (p.1 = l)) = if L.kept then 0 else L.handles
  sess : ∀ p, p ∈ h → ∃ L, st.lives[p.1]? = some L ∧ L.session = p.2
  trk : ∀ L, L ∈ st.lives → ∀ L', L' ∈ st.lives → L.tracker = L'.tracker → L.session = L'.session
  dk : ∀ L, L ∈ st.lives → L.dying = true → L.kept = false ∧ L.handles = 0

/-- The facts about a stored key with the given tracker. -/
structure Kept (n : Nat) (st : State) (s : Nat) (ids : List Nat) (t : Nat) : Prop where
  len : ids.length = n
  nodup : ids.Nodup
  life : ∀ l, l ∈ ids → ∃ L, st.lives[l]? = some L ∧ L.session = s ∧ L.tracker = t ∧
    L.handles = 1 ∧ L.dying = false ∧ L.kept = true
  cnt : st.lives.countP (fun L => decide (L.tracker = t) && (L.alive && L.kept)) = n
  rng : t < st.trackers.length

/-- A stored key for every session that has one, and no session twice. -/
structure Inv (n : Nat) (st : State) (h : List (Nat × Nat)) : Prop extends Core st h where
  kept : ∀ p, p ∈ st.stored → ∃ t, Kept n st p.1 p.2 t
  once : (st.stored.map (·.1)).Nodup

/-- The life cycles of the session belong to the key stored for it. -/
def Own (n : Nat) (st : State) (s : Nat) : Prop :=
  ∀ L, L ∈ st.lives → L.session = s →
    ∃ ids t, (s, ids) ∈ st.stored ∧ Kept n st s ids t ∧ L.tracker = t

theorem find_stored {st : State} {s : Nat} {p : Nat × List Nat}
    (h : st.stored.find? (fun p => p.1 = s) = some p) : p ∈ st.stored ∧ p.1 = s :=
  ⟨List.mem_of_find?_eq_some h, by simpa using List.find?_some h⟩

theorem stored_unique {xs : List (Nat × List Nat)} (h : (xs.map (·.1)).Nodup)
    {p q : Nat × List Nat} (hp : p ∈ xs) (hq : q ∈ xs) (e : p.1 = q.1) : p = q := by
  induction xs with
  | nil => cases hp
  | cons x xs ih =>
    simp only [List.map_cons, List.nodup_cons, List.mem_map, not_exists, not_and] at h
    rcases List.mem_cons.1 hp with hp' | hp'
    · rcases List.mem_cons.1 hq with hq' | hq'
      · rw [hp', hq']
      · exact absurd (hp' ▸ e.symm) (h.1 q hq')
    · rcases List.mem_cons.1 hq with hq' | hq'
      · exact absurd (hq' ▸ e) (h.1 p hp')
      · exact ih h.2 hp' hq'

theorem find_of_mem {st : State} (h : (st.stored.map (·.1)).Nodup) {p : Nat × List Nat}
    (hp : p ∈ st.stored) : st.stored.find? (fun q => q.1 = p.1) = some p := by
  cases hf : st.stored.find? fun q => q.1 = p.1 with
  | none =>
    rw [List.find?_eq_none] at hf
    exact absurd (hf p hp) (by simp)
  | some q =>
    obtain ⟨hq, e⟩ := find_stored hf
    rw [stored_unique h hq hp e]

/-! ### Closed forms -/

theorem filterMap_same {α β : Type} {f g : α → Option β} {xs : List α}
    (h : ∀ x, x ∈ xs → f x = g x) : xs.filterMap f = xs.filterMap g := by
  induction xs with
  | nil => rfl
  | cons x xs ih =>
    rw [List.filterMap_cons, List.filterMap_cons, h x (by simp),
      ih fun y hy => h y (by simp [hy])]

theorem makeTags_eq (s t : Nat) (kept : Bool) : ∀ (bs : List Nat) (st : State),
    t < st.trackers.length →
    st.makeTags s t kept bs =
      ({ st with
          lives := st.lives ++ bs.map fun b => ⟨s, b, t, 1, false, kept⟩
          trackers := st.trackers.set t (st.count t + bs.length) },
        List.range' st.lives.length bs.length) := by
  intro bs
  induction bs with
  | nil =>
    intro st h
    simp only [State.makeTags, List.map_nil, List.append_nil, List.length_nil, Nat.add_zero,
      List.range'_zero, State.count, List.getD_eq_getElem?_getD, List.getElem?_eq_getElem h,
      Option.getD_some, List.set_getElem_self]
  | cons b bs ih =>
    intro st h
    simp only [State.makeTags, State.setCount]
    rw [ih _ (by simpa using h)]
    simp only [List.append_assoc, List.map_cons, List.singleton_append, List.length_append,
      List.length_cons, List.length_nil, List.range'_succ, List.set_set, State.count,
      List.getD_eq_getElem?_getD, List.getElem?_set, h, if_true, Option.getD_some, Nat.zero_add]
    have e : (st.trackers[t]?.getD 0 + 1) + bs.length = st.trackers[t]?.getD 0 + (bs.length + 1) := by
      omega
    rw [e]

/-- The life cycle of a deep clone. -/
def Life.copy (L : Life) : Life := { L with handles := 1, dying := false, kept := false }

theorem deepClone_eq (t : Nat) : ∀ (ids : List Nat) (st : State), t < st.trackers.length →
    (∀ l, l ∈ ids → ∃ L, st.lives[l]? = some L ∧ L.tracker = t) →
    st.deepClone ids =
      ({ st with
          lives := st.lives ++ ids.filterMap fun l => (st.lives[l]?).map Life.copy
          trackers := st.trackers.set t (st.count t + ids.length) },
        List.range' st.lives.length ids.length) := by
  intro ids
  induction ids with
  | nil =>
    intro st h _
    simp only [State.deepClone, List.filterMap_nil, List.append_nil, List.length_nil, Nat.add_zero,
      List.range'_zero, State.count, List.getD_eq_getElem?_getD, List.getElem?_eq_getElem h,
      Option.getD_some, List.set_getElem_self]
  | cons l ids ih =>
    intro st h hl
    obtain ⟨L, hL, ht⟩ := hl l (by simp)
    have hold : ∀ k, k ∈ ids → (st.lives ++ [L.copy])[k]? = st.lives[k]? := by
      intro k hk
      obtain ⟨K, hK, _⟩ := hl k (by simp [hk])
      exact List.getElem?_append_left (List.getElem?_eq_some_iff.1 hK).1
    simp only [State.deepClone, hL, State.setCount]
    subst ht
    rw [ih _ (by simpa using h)]
    · have e : (st.trackers[L.tracker]?.getD 0 + 1) + ids.length =
          st.trackers[L.tracker]?.getD 0 + (ids.length + 1) := by omega
      have ef : (ids.filterMap fun k => ((st.lives ++ [L.copy])[k]?).map Life.copy) =
          ids.filterMap fun k => (st.lives[k]?).map Life.copy := by
        exact filterMap_same fun k hk => by rw [hold k hk]
      simp only [Life.copy] at ef
      simp only [List.append_assoc, List.filterMap_cons, hL, Option.map_some,
        List.singleton_append, List.length_append, List.length_cons, List.length_nil,
        List.range'_succ, List.set_set, State.count, List.getD_eq_getElem?_getD,
        List.getElem?_set, h, if_true, Option.getD_some, Nat.zero_add, e, Life.copy, ef]
    · intro k hk
      obtain ⟨K, hK, hk'⟩ := hl k (by simp [hk])
      exact ⟨K, (hold k hk).trans hK, hk'⟩

theorem copies_eq {st : State} {s t : Nat} {ids : List Nat} {n : Nat} (h : Kept n st s ids t) :
    ∃ cs : List Life, (ids.filterMap fun l => (st.lives[l]?).map Life.copy) = cs ∧
      cs.length = n ∧ ∀ c, c ∈ cs → c.session = s ∧ c.tracker = t ∧ c.handles = 1 ∧
        c.dying = false ∧ c.kept = false := by
  refine ⟨_, rfl, ?_, ?_⟩
  · have : ∀ ids : List Nat, (∀ l, l ∈ ids → ∃ L, st.lives[l]? = some L) →
        (ids.filterMap fun l => (st.lives[l]?).map Life.copy).length = ids.length := by
      intro ids
      induction ids with
      | nil => intro _; rfl
      | cons l ids ih =>
        intro hl
        obtain ⟨L, hL⟩ := hl l (by simp)
        simp only [List.filterMap_cons, hL, Option.map_some, List.length_cons,
          ih (fun k hk => hl k (by simp [hk]))]
    rw [this ids fun l hl => ⟨_, (h.life l hl).choose_spec.1⟩, h.len]
  · intro c hc
    obtain ⟨l, hl, hc⟩ := List.mem_filterMap.1 hc
    obtain ⟨L, hL, h1, h2, _⟩ := h.life l hl
    rw [hL] at hc
    simp only [Option.map_some, Option.some.injEq] at hc
    subst hc
    exact ⟨h1, h2, rfl, rfl, rfl⟩

/-! ### Changing the life cycle of one user key -/

structure SetUser (st st' : State) (h h' : List (Nat × Nat)) (l : Nat) (L L' : Life) : Prop where
  at_ : st.lives[l]? = some L
  user : L.kept = false
  lives : st'.lives = st.lives.set l L'
  stored : st'.stored = st.stored
  len : st'.trackers.length = st.trackers.length
  session : L'.session = L.session
  tracker : L'.tracker = L.tracker
  kept : L'.kept = false
  dk : L'.dying = true → L'.handles = 0
  count : ∀ t, st'.count t + (if (decide (L.tracker = t) && L.alive) = true then 1 else 0) =
    st.count t + (if (decide (L.tracker = t) && L'.alive) = true then 1 else 0)
  hand : h'.countP (fun p => decide (p.1 = l)) = L'.handles
  other : ∀ k, k ≠ l → h'.countP (fun p => decide (p.1 = k)) =
    h.countP (fun p => decide (p.1 = k))
  sub : ∀ p, p ∈ h' → p ∈ h

section
variable {st st' : State} {h h' : List (Nat × Nat)} {l : Nat} {L L' : Life} {n : Nat}

theorem SetUser.get (c : SetUser st st' h h' l L L') (k : Nat) :
    st'.lives[k]? = if k = l then some L' else st.lives[k]? := by
  rw [c.lives, List.getElem?_set]
  by_cases hk : l = k
  · subst hk
    have := (List.getElem?_eq_some_iff.1 c.at_).1
    simp [this]
  · have : ¬ k = l := fun h => hk h.symm
    simp [hk, this]

theorem SetUser.mem (c : SetUser st st' h h' l L L') {M : Life} (hM : M ∈ st'.lives) :
    M = L' ∨ M ∈ st.lives := mem_set_cases (c.lives ▸ hM)

theorem SetUser.like (c : SetUser st st' h h' l L L') {M : Life} (hM : M ∈ st'.lives) :
    ∃ K, K ∈ st.lives ∧ M.session = K.session ∧ M.tracker = K.tracker := by
  rcases c.mem hM with rfl | hM
  · exact ⟨L, List.mem_of_getElem? c.at_, c.session, c.tracker⟩
  · exact ⟨M, hM, rfl, rfl⟩

theorem SetUser.keeps (c : SetUser st st' h h' l L L') {s ids t} (hk : Kept n st s ids t) :
    Kept n st' s ids t where
  len := hk.len
  nodup := hk.nodup
  life := by
    intro k hk'
    obtain ⟨K, hK, hr⟩ := hk.life k hk'
    refine ⟨K, ?_, hr⟩
    rw [c.get, if_neg]
    · exact hK
    · intro e
      subst e
      rw [c.at_] at hK
      cases hK
      have := hr.2.2.2.2
      rw [c.user] at this
      cases this
  cnt := by
    have := countP_replace (fun M : Life => decide (M.tracker = t) && (M.alive && M.kept)) c.at_ L'
    simp only [c.user, c.kept, Bool.and_false, Bool.false_eq_true, if_false, Nat.add_zero] at this
    rw [c.lives, this, hk.cnt]
  rng := c.len ▸ hk.rng

theorem SetUser.inv (c : SetUser st st' h h' l L L') (i : Inv n st h) : Inv n st' h' where
  cnt := by
    intro t
    have e := countP_replace (fun M : Life => decide (M.tracker = t) && M.alive) c.at_ L'
    have := c.count t
    rw [c.lives]
    simp only [c.tracker] at e
    have := i.cnt t
    omega
  rng := by
    intro M hM
    obtain ⟨K, hK, _, ht⟩ := c.like hM
    rw [ht, c.len]; exact i.rng K hK
  hand := by
    intro k K hK
    rw [c.get] at hK
    by_cases e : k = l
    · subst e
      rw [if_pos rfl] at hK
      cases hK
      rw [c.kept]; exact c.hand
    · rw [if_neg e] at hK
      rw [c.other k e]; exact i.hand k K hK
  sess := by
    intro p hp
    obtain ⟨K, hK, hs⟩ := i.sess p (c.sub p hp)
    by_cases e : p.1 = l
    · rw [e] at hK
      rw [c.at_] at hK
      cases hK
      exact ⟨L', by rw [c.get, if_pos e], c.session.trans hs⟩
    · exact ⟨K, by rw [c.get, if_neg e]; exact hK, hs⟩
  trk := by
    intro M hM M' hM' e
    obtain ⟨K, hK, h1, h2⟩ := c.like hM
    obtain ⟨K', hK', h1', h2'⟩ := c.like hM'
    rw [h1, h1']
    exact i.trk K hK K' hK' (by rw [← h2, ← h2', e])
  dk := by
    intro M hM hd
    rcases c.mem hM with rfl | hM
    · exact ⟨c.kept, c.dk hd⟩
    · exact i.dk M hM hd
  kept := by
    intro p hp
    rw [c.stored] at hp
    obtain ⟨t, hk⟩ := i.kept p hp
    exact ⟨t, c.keeps hk⟩
  once := by rw [c.stored]; exact i.once

theorem SetUser.own (c : SetUser st st' h h' l L L') {s : Nat} (o : Own n st s) :
    Own n st' s := by
  intro M hM hs
  obtain ⟨K, hK, h1, h2⟩ := c.like hM
  obtain ⟨ids, t, hm, hk, ht⟩ := o K hK (h1 ▸ hs)
  exact ⟨ids, t, c.stored ▸ hm, c.keeps hk, h2.trans ht⟩
end

/-- Changes outside of the life cycles. -/
theorem Kept.congr {n : Nat} {st st' : State} {s ids t} (h : Kept n st s ids t)
    (e : st'.lives = st.lives) (e' : st'.trackers = st.trackers) : Kept n st' s ids t :=
  ⟨h.len, h.nodup, e ▸ h.life, e ▸ h.cnt, e' ▸ h.rng⟩

theorem Core.congr {st st' : State} {h} (i : Core st h)
    (e : st'.lives = st.lives) (e' : st'.trackers = st.trackers) : Core st' h :=
  ⟨by intro t; simp only [State.count, e']; exact e ▸ i.cnt t, e ▸ e' ▸ i.rng, e ▸ i.hand,
    e ▸ i.sess, e ▸ i.trk, e ▸ i.dk⟩

theorem Inv.congr {n : Nat} {st st' : State} {h} (i : Inv n st h)
    (e : st'.lives = st.lives) (e' : st'.trackers = st.trackers)
    (e'' : st'.stored = st.stored) : Inv n st' h :=
  { i.toCore.congr e e' with
    kept := by
      intro p hp
      obtain ⟨t, hk⟩ := i.kept p (e'' ▸ hp)
      exact ⟨t, hk.congr e e'⟩
    once := e'' ▸ i.once }

theorem Own.congr {n : Nat} {st st' : State} {s : Nat} (o : Own n st s)
    (e : st'.lives = st.lives) (e' : st'.trackers = st.trackers)
    (e'' : st'.stored = st.stored) : Own n st' s := by
  intro M hM hs
  obtain ⟨ids, t, hm, hk, ht⟩ := o M (e ▸ hM) hs
  exact ⟨ids, t, e'' ▸ hm, hk.congr e e', ht⟩

theorem notify_lives (st : State) (L : Life) : (st.notify L).lives = st.lives := by
  unfold State.notify; split <;> rfl
theorem notify_trackers (st : State) (L : Life) : (st.notify L).trackers = st.trackers := by
  unfold State.notify; split <;> rfl
theorem notify_stored (st : State) (L : Life) : (st.notify L).stored = st.stored := by
  unfold State.notify; split <;> rfl
theorem notify_seen (st : State) (L : Life) : (st.notify L).seen = st.seen := by
  unfold State.notify; split <;> rfl
theorem notify_count (st : State) (L : Life) (t : Nat) : (st.notify L).count t = st.count t := by
  simp [State.count, notify_trackers]

theorem countP_eraseP_same {α : Type} (p : α → Bool) (xs : List α) :
    (xs.eraseP p).countP p = xs.countP p - 1 := by
  induction xs with
  | nil => rfl
  | cons x xs ih =>
    by_cases h : p x
    · simp [List.eraseP_cons_of_pos, h]
    · simp [List.eraseP_cons_of_neg, h, ih]

theorem countP_eraseP_other {α : Type} (p q : α → Bool) (hpq : ∀ x, p x = true → q x = false)
    (xs : List α) : (xs.eraseP p).countP q = xs.countP q := by
  induction xs with
  | nil => rfl
  | cons x xs ih =>
    by_cases h : p x
    · simp [List.eraseP_cons_of_pos, h, hpq x h]
    · simp [List.eraseP_cons_of_neg, h, List.countP_cons, ih]

theorem find_hand {h : List (Nat × Nat)} {l k : Nat} (hp : h.countP (fun p => decide (p.1 = l)) = k)
    (hk : k > 0) : ∃ q, h.find? (fun p => p.1 = l) = some q ∧ q ∈ h ∧ q.1 = l := by
  cases hf : h.find? fun p => p.1 = l with
  | none =>
    rw [List.find?_eq_none] at hf
    have : h.countP (fun p => decide (p.1 = l)) = 0 := by
      rw [List.countP_eq_zero]
      intro p hp; exact hf p hp
    omega
  | some q => exact ⟨q, rfl, List.mem_of_find?_eq_some hf, by simpa using List.find?_some hf⟩

theorem find_no_hand {h : List (Nat × Nat)} {l : Nat}
    (hp : h.countP (fun p => decide (p.1 = l)) = 0) :
    h.find? (fun p => p.1 = l) = none ∧ h.eraseP (fun p => decide (p.1 = l)) = h := by
  rw [List.countP_eq_zero] at hp
  exact ⟨by rw [List.find?_eq_none]; exact hp, List.eraseP_of_forall_not (by simpa using hp)⟩

/-- A key that is not held has no life cycle in use. -/
theorem Core.no_hand {st : State} {h} (i : Core st h) {l : Nat}
    (hno : ∀ L, st.lives[l]? = some L → ¬ (L.handles > 0 ∧ (!L.kept) = true)) :
    h.countP (fun p => decide (p.1 = l)) = 0 := by
  cases hl : st.lives[l]? with
  | some L =>
    rw [i.hand l L hl]
    have := hno L hl
    cases hk : L.kept with
    | true => simp
    | false => simp [hk] at this ⊢; exact this
  | none =>
    rw [List.countP_eq_zero]
    intro p hp he
    obtain ⟨L, hL, _⟩ := i.sess p hp
    have : p.1 = l := by simpa using he
    rw [this, hl] at hL
    cases hL

theorem clone_inv {n : Nat} {st : State} {h} (i : Inv n st h) (l : Nat) :
    Inv n (st.clone l) (h ++ (h.find? fun p => p.1 = l).toList) ∧
    ∀ s, Own n st s → Own n (st.clone l) s := by
  cases hl : st.lives[l]? with
  | none =>
    have := find_no_hand (i.toCore.no_hand (l := l) (by intro L hL; rw [hl] at hL; cases hL))
    simp only [State.clone, hl, this.1, Option.toList_none, List.append_nil]
    exact ⟨i, fun s o => o⟩
  | some L =>
    by_cases hc : L.handles > 0 ∧ (!L.kept) = true
    · simp only [State.clone, hl, hc, and_self, if_true]
      have hkept : L.kept = false := by simpa using hc.2
      have hh := i.hand l L hl
      rw [hkept] at hh
      obtain ⟨q, hq, hqm, hql⟩ := find_hand hh hc.1
      have c : SetUser st { st with lives := st.lives.set l { L with handles := L.handles + 1 } }
          h (h ++ [q]) l L { L with handles := L.handles + 1 } :=
        { at_ := hl
          user := hkept
          lives := rfl
          stored := rfl
          len := rfl
          session := rfl
          tracker := rfl
          kept := hkept
          dk := fun hd => by
            have := (i.dk L (List.mem_of_getElem? hl) hd).2
            omega
          count := by
            intro t
            have pos : 0 < L.handles := hc.1
            simp [pos, Life.alive, State.count]
          hand := by simp [List.countP_append, hh, hql]
          other := by
            intro k hk
            have : ¬ l = k := fun e => hk e.symm
            simp [List.countP_append, List.countP_cons, hql, this]
          sub := by
            intro p hp
            rcases List.mem_append.1 hp with hp | hp
            · exact hp
            · rw [List.mem_singleton.1 hp]; exact hqm }
      rw [hq]
      exact ⟨c.inv i, fun s o => c.own o⟩
    · have := find_no_hand (i.toCore.no_hand (l := l) (by
        intro L' hL'; rw [hl] at hL'; cases hL'; exact hc))
      simp only [State.clone, hl, hc, if_false, this.1, Option.toList_none, List.append_nil]
      exact ⟨i, fun s o => o⟩

theorem drop_inv {n : Nat} {st : State} {h} (i : Inv n st h) (l : Nat) :
    Inv n (st.drop l) (h.eraseP fun p => decide (p.1 = l)) ∧
    ∀ s, Own n st s → Own n (st.drop l) s := by
  cases hl : st.lives[l]? with
  | none =>
    have := find_no_hand (i.toCore.no_hand (l := l) (by intro L hL; rw [hl] at hL; cases hL))
    simp only [State.drop, hl, this.2]
    exact ⟨i, fun s o => o⟩
  | some L =>
    by_cases hc : L.handles > 0 ∧ (!L.kept) = true
    · have hkept : L.kept = false := by simpa using hc.2
      have hh := i.hand l L hl
      rw [hkept] at hh
      simp only [Bool.false_eq_true, if_false] at hh
      have hother : ∀ k, k ≠ l → (h.eraseP fun p => decide (p.1 = l)).countP
          (fun p => decide (p.1 = k)) = h.countP (fun p => decide (p.1 = k)) := by
        intro k hk
        apply countP_eraseP_other
        intro p hp
        have : p.1 = l := by simpa using hp
        simp [this, Ne.symm hk]
      have hsame := countP_eraseP_same (fun p : Nat × Nat => decide (p.1 = l)) h
      rw [hh] at hsame
      by_cases h1 : L.handles = 1
      · simp only [State.drop, hl, hc, and_self, if_true, h1]
        have c : SetUser st
            { st with lives := st.lives.set l { L with handles := 0, dying := true } }
            h (h.eraseP fun p => decide (p.1 = l)) l L { L with handles := 0, dying := true } :=
          { at_ := hl
            user := hkept
            lives := rfl
            stored := rfl
            len := rfl
            session := rfl
            tracker := rfl
            kept := hkept
            dk := fun _ => rfl
            count := by
              intro t
              have pos : 0 < L.handles := hc.1
              simp [pos, Life.alive, State.count]
            hand := by rw [hsame, h1]
            other := hother
            sub := fun p hp => List.mem_of_mem_eraseP hp }
        have e1 := notify_lives
          { st with lives := st.lives.set l { L with handles := 0, dying := true } } L
        have e2 := notify_trackers
          { st with lives := st.lives.set l { L with handles := 0, dying := true } } L
        have e3 := notify_stored
          { st with lives := st.lives.set l { L with handles := 0, dying := true } } L
        exact ⟨(c.inv i).congr e1 e2 e3, fun s o => (c.own o).congr e1 e2 e3⟩
      · simp only [State.drop, hl, hc, and_self, if_true, h1, if_false]
        have c : SetUser st { st with lives := st.lives.set l { L with handles := L.handles - 1 } }
            h (h.eraseP fun p => decide (p.1 = l)) l L { L with handles := L.handles - 1 } :=
          { at_ := hl
            user := hkept
            lives := rfl
            stored := rfl
            len := rfl
            session := rfl
            tracker := rfl
            kept := hkept
            dk := fun hd => by
              have := (i.dk L (List.mem_of_getElem? hl) hd).2
              omega
            count := by
              intro t
              have pos : 0 < L.handles := hc.1
              have h2 : L.handles - 1 > 0 := by omega
              simp [pos, Life.alive, State.count, h2]
            hand := hsame
            other := hother
            sub := fun p hp => List.mem_of_mem_eraseP hp }
        exact ⟨c.inv i, fun s o => c.own o⟩
    · have := find_no_hand (i.toCore.no_hand (l := l) (by
        intro L' hL'; rw [hl] at hL'; cases hL'; exact hc))
      simp only [State.drop, hl, hc, if_false, this.2]
      exact ⟨i, fun s o => o⟩

theorem finish_inv {n : Nat} {st : State} {h} (i : Inv n st h) (l : Nat) :
    Inv n (st.finish l) h ∧ ∀ s, Own n st s → Own n (st.finish l) s := by
  cases hl : st.lives[l]? with
  | none => simp only [State.finish, hl]; exact ⟨i, fun s o => o⟩
  | some L =>
    by_cases hd : L.dying = true
    · simp only [State.finish, hl, hd, if_true]
      have hm := List.mem_of_getElem? hl
      obtain ⟨hkept, h0⟩ := i.dk L hm hd
      have hh := i.hand l L hl
      rw [hkept] at hh
      simp only [Bool.false_eq_true, if_false] at hh
      have hr := i.rng L hm
      have c : SetUser st
          ({ st with lives := st.lives.set l { L with dying := false } }.setCount L.tracker
            (st.count L.tracker - 1)) h h l L { L with dying := false } :=
        { at_ := hl
          user := hkept
          lives := rfl
          stored := rfl
          len := by simp [State.setCount]
          session := rfl
          tracker := rfl
          kept := hkept
          dk := fun _ => h0
          count := by
            intro t
            rw [count_setCount _ _ _ _ (by exact hr)]
            have halive : L.alive = true := by simp [Life.alive, hd]
            have hpos : st.count L.tracker > 0 := by
              rw [i.cnt]
              exact List.countP_pos_iff.2 ⟨L, hm, by simp [halive]⟩
            by_cases e : t = L.tracker
            · subst e
              have hn : ({ L with dying := false } : Life).alive = false := by
                simp [Life.alive, h0]
              simp only [hn, halive, decide_true, Bool.and_true, Bool.and_false, if_true,
                Bool.false_eq_true, if_false]
              omega
            · have : ¬ L.tracker = t := fun x => e x.symm
              simp [e, this, State.count]
          hand := hh
          other := fun _ _ => rfl
          sub := fun _ hp => hp }
      exact ⟨c.inv i, fun s o => c.own o⟩
    · simp only [State.finish, hl, hd]; exact ⟨i, fun s o => o⟩

end Verif.Keys
