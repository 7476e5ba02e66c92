import Verif.Keys.Lemmas

set_option linter.unusedSimpArgs false
set_option linter.unusedVariables false

/- Handing out keys and cleaning up keep the invariant. -/
namespace Verif.Keys

/-- New life cycles `cs` of session `s` with tracker `t`. -/
structure Fresh (s t : Nat) (k : Bool) (cs : List Life) : Prop where
  all : ∀ c, c ∈ cs → c.session = s ∧ c.tracker = t ∧ c.handles = 1 ∧ c.dying = false ∧ c.kept = k

theorem Fresh.alive {s t k cs} (f : Fresh s t k cs) {c} (h : c ∈ cs) : c.alive = true := by
  simp [Life.alive, (f.all c h).2.2.1]

theorem Fresh.countP {s t k cs} (f : Fresh s t k cs) (u : Nat) :
    (cs.countP fun L => decide (L.tracker = u) && L.alive) = if u = t then cs.length else 0 := by
  by_cases e : u = t
  · subst e
    rw [if_pos rfl, List.countP_eq_length]
    intro c hc
    simp [f.alive hc, (f.all c hc).2.1]
  · rw [if_neg e, List.countP_eq_zero]
    intro c hc
    have : ¬ t = u := fun x => e x.symm
    simp [(f.all c hc).2.1, this]

theorem Fresh.countKept {s t k cs} (f : Fresh s t k cs) (u : Nat) :
    (cs.countP fun L => decide (L.tracker = u) && (L.alive && L.kept)) =
      if u = t ∧ k = true then cs.length else 0 := by
  by_cases e : u = t ∧ k = true
  · rw [if_pos e, List.countP_eq_length]
    intro c hc
    simp [f.alive hc, (f.all c hc).2.1, (f.all c hc).2.2.2.2, e.1, e.2]
  · rw [if_neg e, List.countP_eq_zero]
    intro c hc h
    simp only [(f.all c hc).2.1, f.alive hc, (f.all c hc).2.2.2.2, Bool.and_eq_true,
      decide_eq_true_eq, true_and] at h
    exact e ⟨h.1.symm, h.2⟩

theorem range_count (a n l : Nat) (s : Nat) :
    (((List.range' a n).map fun l => (l, s)).countP fun p => decide (p.1 = l)) =
      if a ≤ l ∧ l < a + n then 1 else 0 := by
  induction n generalizing a with
  | zero =>
    have : ¬ (a ≤ l ∧ l < a + 0) := by omega
    simp [this]
  | succ n ih =>
    simp only [List.range'_succ, List.map_cons, List.countP_cons, ih, decide_eq_true_eq]
    by_cases h1 : a = l
    · subst h1
      have h2 : ¬ (a + 1 ≤ a ∧ a < a + 1 + n) := by omega
      have h3 : a ≤ a ∧ a < a + (n + 1) := by omega
      simp [h2, h3]
    · by_cases h4 : a ≤ l ∧ l < a + (n + 1)
      · have h2 : a + 1 ≤ l ∧ l < a + 1 + n := by omega
        simp [h1, h2, h4]
      · have h2 : ¬ (a + 1 ≤ l ∧ l < a + 1 + n) := by omega
        rw [if_neg h4, if_neg h2, if_neg h1]

theorem append_core {st st' : State} {h : List (Nat × Nat)} {s t : Nat} {k : Bool}
    {cs : List Life} (i : Core st h) (f : Fresh s t k cs)
    (hl : st'.lives = st.lives ++ cs) (hlen : st.trackers.length ≤ st'.trackers.length)
    (ht : t < st'.trackers.length)
    (hc : ∀ u, st'.count u = st.count u + if u = t then cs.length else 0)
    (hs : ∀ L, L ∈ st.lives → L.tracker = t → L.session = s) :
    Core st' (h ++ if k then [] else
      (List.range' st.lives.length cs.length).map fun l => (l, s)) where
  cnt := by
    intro u
    rw [hc, hl, List.countP_append, f.countP, i.cnt]
  rng := by
    intro L hL
    rw [hl, List.mem_append] at hL
    rcases hL with hL | hL
    · exact Nat.lt_of_lt_of_le (i.rng L hL) hlen
    · rw [(f.all L hL).2.1]; exact ht
  hand := by
    intro l L hL
    rw [hl] at hL
    have hcount : (if k = true then ([] : List (Nat × Nat)) else
        (List.range' st.lives.length cs.length).map fun l => (l, s)).countP
        (fun p => decide (p.1 = l)) =
        if k = true then 0 else
          if st.lives.length ≤ l ∧ l < st.lives.length + cs.length then 1 else 0 := by
      cases k
      · simpa using range_count _ _ _ _
      · simp
    rw [List.countP_append, hcount]
    by_cases hlt : l < st.lives.length
    · rw [List.getElem?_append_left hlt] at hL
      have h1 : ¬ (st.lives.length ≤ l ∧ l < st.lives.length + cs.length) := by omega
      rw [i.hand l L hL, if_neg h1]
      simp
    · have hge : st.lives.length ≤ l := by omega
      rw [List.getElem?_append_right hge] at hL
      have hmem := List.mem_of_getElem? hL
      have hlt2 := (List.getElem?_eq_some_iff.1 hL).1
      have h1 : st.lives.length ≤ l ∧ l < st.lives.length + cs.length := by omega
      have h0 : h.countP (fun p => decide (p.1 = l)) = 0 := by
        rw [List.countP_eq_zero]
        intro p hp e
        obtain ⟨M, hM, _⟩ := i.sess p hp
        have e : p.1 = l := by simpa using e
        rw [e] at hM
        exact hlt (List.getElem?_eq_some_iff.1 hM).1
      rw [h0, if_pos h1, (f.all L hmem).2.2.2.2, (f.all L hmem).2.2.1]
      simp
  sess := by
    intro p hp
    rw [List.mem_append] at hp
    rcases hp with hp | hp
    · obtain ⟨L, hL, e⟩ := i.sess p hp
      exact ⟨L, by rw [hl, List.getElem?_append_left (List.getElem?_eq_some_iff.1 hL).1, hL], e⟩
    · cases k with
      | true => simp at hp
      | false =>
        simp only [Bool.false_eq_true, if_false, List.mem_map, List.mem_range'_1] at hp
        obtain ⟨l, ⟨h1, h2⟩, rfl⟩ := hp
        have h3 : l - st.lives.length < cs.length := by omega
        refine ⟨cs[l - st.lives.length], ?_, (f.all _ (List.getElem_mem h3)).1⟩
        rw [hl, List.getElem?_append_right h1, List.getElem?_eq_getElem h3]
  trk := by
    intro L hL L' hL' e
    rw [hl, List.mem_append] at hL hL'
    rcases hL with hL | hL <;> rcases hL' with hL' | hL'
    · exact i.trk L hL L' hL' e
    · rw [(f.all L' hL').2.1] at e
      rw [(f.all L' hL').1]; exact hs L hL e
    · rw [(f.all L hL).2.1] at e
      rw [(f.all L hL).1]; exact (hs L' hL' e.symm).symm
    · rw [(f.all L hL).1, (f.all L' hL').1]
  dk := by
    intro L hL hd
    rw [hl, List.mem_append] at hL
    rcases hL with hL | hL
    · exact i.dk L hL hd
    · rw [(f.all L hL).2.2.2.1] at hd; cases hd

theorem Kept.append {n : Nat} {st st' : State} {s t k cs s' ids' t'} (h : Kept n st s' ids' t')
    (f : Fresh s t k cs) (hl : st'.lives = st.lives ++ cs)
    (hlen : st.trackers.length ≤ st'.trackers.length) (hne : ¬ (t' = t ∧ k = true)) :
    Kept n st' s' ids' t' where
  len := h.len
  nodup := h.nodup
  life := by
    intro l hm
    obtain ⟨L, hL, hr⟩ := h.life l hm
    exact ⟨L, by rw [hl, List.getElem?_append_left (List.getElem?_eq_some_iff.1 hL).1, hL], hr⟩
  cnt := by
    rw [hl, List.countP_append, f.countKept, if_neg hne, h.cnt]
    rfl
  rng := Nat.lt_of_lt_of_le h.rng hlen

theorem Kept.new {st st' : State} {s t} {bs : List Nat}
    (hl : st'.lives = st.lives ++ bs.map fun b => (⟨s, b, t, 1, false, true⟩ : Life))
    (ht : t < st'.trackers.length)
    (hnew : ∀ L, L ∈ st.lives → L.tracker ≠ t) :
    Kept bs.length st' s (List.range' st.lives.length bs.length) t where
  len := by simp
  nodup := List.nodup_range'
  life := by
    intro l hm
    rw [List.mem_range'_1] at hm
    have h3 : l - st.lives.length < bs.length := by omega
    refine ⟨⟨s, bs[l - st.lives.length], t, 1, false, true⟩, ?_, rfl, rfl, rfl, rfl, rfl⟩
    rw [hl, List.getElem?_append_right hm.1, List.getElem?_map, List.getElem?_eq_getElem h3]
    rfl
  cnt := by
    have f : Fresh s t true (bs.map fun b => (⟨s, b, t, 1, false, true⟩ : Life)) :=
      ⟨by intro c hc; obtain ⟨b, _, rfl⟩ := List.mem_map.1 hc; exact ⟨rfl, rfl, rfl, rfl, rfl⟩⟩
    rw [hl, List.countP_append, f.countKept, if_pos ⟨rfl, rfl⟩, List.length_map]
    have : (st.lives.countP fun L => decide (L.tracker = t) && (L.alive && L.kept)) = 0 := by
      rw [List.countP_eq_zero]
      intro L hL
      simp [hnew L hL]
    omega
  rng := ht

theorem access_inv {st : State} {h : List (Nat × Nat)} (bs : List Nat) (i : Inv bs.length st h)
    (s : Nat) :
    Inv bs.length (st.access bs s).1 (h ++ (st.access bs s).2.map fun l => (l, s)) ∧
    (∀ s', Own bs.length st s' → Own bs.length (st.access bs s).1 s') ∧
    (∃ ids, (s, ids) ∈ (st.access bs s).1.stored) ∧
    (∀ p, p ∈ st.stored → p ∈ (st.access bs s).1.stored) ∧
    (st.access bs s).1.channel = st.channel ∧ (st.access bs s).1.seen = st.seen := by
  cases hf : st.stored.find? fun p => p.1 = s with
  | some p =>
    obtain ⟨hpm, hps⟩ := find_stored hf
    obtain ⟨t, hk⟩ := i.kept p hpm
    obtain ⟨q, ids⟩ := p
    simp only at hps
    subst hps
    have e := deepClone_eq t ids st hk.rng fun l hl => by
      obtain ⟨L, hL, h1, h2, _⟩ := hk.life l hl; exact ⟨L, hL, h2⟩
    obtain ⟨cs, hcs, hlen, hall⟩ := copies_eq hk
    have f : Fresh q t false cs := ⟨hall⟩
    rw [hcs] at e
    simp only at hk
    have hlen' : cs.length = ids.length := by rw [hlen, hk.len]
    simp only [State.access, hf, e]
    have hs : ∀ L, L ∈ st.lives → L.tracker = t → L.session = q ∨ bs.length = 0 := by
      intro L hL ht
      by_cases h0 : ids = []
      · right; rw [← hk.len, h0]; rfl
      · left
        obtain ⟨l, hl⟩ := List.exists_mem_of_ne_nil ids h0
        obtain ⟨K, hK, h1, h2, _⟩ := hk.life l hl
        rw [← h1]
        exact i.trk L hL K (List.mem_of_getElem? hK) (ht.trans h2.symm)
    by_cases h0 : ids = []
    · -- no buffers: nothing changes
      have hn : cs = [] := by
        apply List.eq_nil_of_length_eq_zero; rw [hlen', h0]; rfl
      subst h0
      rw [hn]
      have ht : st.trackers.set t (st.count t + 0) = st.trackers := by
        simp [State.count, List.getD_eq_getElem?_getD, List.getElem?_eq_getElem hk.rng]
      simp only [List.append_nil, List.length_nil, List.range'_zero, List.map_nil, ht]
      refine ⟨i, fun s' o => o, ⟨_, hpm⟩, fun p hp => hp, trivial, trivial⟩
    · have hs' : ∀ L, L ∈ st.lives → L.tracker = t → L.session = q := by
        intro L hL ht
        rcases hs L hL ht with h | h
        · exact h
        · exact absurd (List.eq_nil_of_length_eq_zero (hk.len.trans h)) h0
      let G : State := { st with
        lives := st.lives ++ cs
        trackers := st.trackers.set t (st.count t + ids.length) }
      have keep : ∀ s' ids' t', Kept bs.length st s' ids' t' → Kept bs.length G s' ids' t' :=
        fun s' ids' t' hk' => hk'.append f rfl (by simp [G]) (by simp)
      have core := append_core (st' := G) i.toCore f rfl (by simp [G])
        (by simpa [G] using hk.rng)
        (by
          intro u
          have := count_setCount st t (st.count t + ids.length) u hk.rng
          simp only [State.setCount, State.count] at this
          simp only [State.count, G]
          rw [this, hlen']
          by_cases hu : u = t
          · subst hu; simp
          · simp [hu]) hs'
      simp only [Bool.false_eq_true, if_false, hlen'] at core
      refine ⟨{ core with kept := ?_, once := i.once }, ?_, ⟨_, hpm⟩, fun p hp => hp,
        trivial, trivial⟩
      · intro p hp
        obtain ⟨t', hk'⟩ := i.kept p hp
        exact ⟨t', keep _ _ _ hk'⟩
      · intro s' o L hL hLs
        rcases List.mem_append.1 hL with hL | hL
        · obtain ⟨ids', t', hm, hk', ht'⟩ := o L hL hLs
          exact ⟨ids', t', hm, keep _ _ _ hk', ht'⟩
        · have hc := f.all L hL
          rw [← hLs, hc.1]
          exact ⟨ids, t, hpm, keep _ _ _ hk, hc.2.1⟩
  | none =>
    have hnew : ∀ L, L ∈ st.lives → L.tracker ≠ st.trackers.length := fun L hL e =>
      Nat.lt_irrefl _ (e ▸ i.rng L hL)
    have hnone : ∀ p, p ∈ st.stored → p.1 ≠ s := by
      intro p hp e
      rw [List.find?_eq_none] at hf
      exact hf p hp (by simpa using e)
    let t := st.trackers.length
    let ks : List Life := bs.map fun b => ⟨s, b, t, 1, false, true⟩
    let ids := List.range' st.lives.length bs.length
    have hks : ks.length = bs.length := by simp [ks]
    have fk : Fresh s t true ks :=
      ⟨by intro c hc; obtain ⟨b, _, rfl⟩ := List.mem_map.1 hc; exact ⟨rfl, rfl, rfl, rfl, rfl⟩⟩
    have e1 := makeTags_eq s t true bs { st with trackers := st.trackers ++ [1] } (by simp [t])
    -- the state in which the stored key has been made
    let B : State := { st with lives := st.lives ++ ks
                               trackers := (st.trackers ++ [1]).set t (1 + bs.length)
                               stored := st.stored ++ [(s, ids)] }
    have hB : Kept bs.length B s ids t :=
      Kept.new (st := st) rfl (by simp [B, t]) hnew
    have e2 := deepClone_eq t ids B hB.rng fun l hl => by
      obtain ⟨L, hL, h1, h2, _⟩ := hB.life l hl; exact ⟨L, hL, h2⟩
    obtain ⟨cs, hcs, hlen, hall⟩ := copies_eq hB
    have fc : Fresh s t false cs := ⟨hall⟩
    rw [hcs] at e2
    have hids : ids.length = bs.length := by simp [ids]
    have hBt : B.count t = 1 + bs.length := by
      simp [B, t, State.count, List.getD_eq_getElem?_getD, List.getElem?_set]
    let F : State := { st with lives := st.lives ++ ks ++ cs
                               trackers := st.trackers ++ [bs.length + bs.length]
                               stored := st.stored ++ [(s, ids)] }
    have eF : st.access bs s = (F, List.range' (st.lives.length + bs.length) bs.length) := by
      simp only [State.access, hf]
      have e1' : { st with trackers := st.trackers ++ [1] }.makeTags s st.trackers.length true bs =
          ({ B with stored := st.stored }, ids) := by
        rw [show st.trackers.length = t from rfl, e1]
        simp [B, ids, ks, State.count, t, List.getD_eq_getElem?_getD]
      simp only [e1']
      have e2' : ({ st with lives := B.lives, trackers := B.trackers,
                            stored := st.stored ++ [(s, ids)] } : State) = B := rfl
      simp only [B] at e2' e2 ⊢
      rw [e2]
      simp only [B] at hBt
      simp only [State.setCount, hBt, hids, List.length_append, hks]
      simp only [F, State.count, List.getD_eq_getElem?_getD, List.set_set]
      have hset : ∀ a b : Nat, (st.trackers ++ [a]).set st.trackers.length b = st.trackers ++ [b] := by
        intro a b
        rw [List.set_append_right _ _ (Nat.le_refl _)]
        simp
      simp only [t, hset]
      have : (1 + bs.length + bs.length) - 1 = bs.length + bs.length := by omega
      simp [this]
    rw [eF]
    -- Core in two steps
    let st1 : State := { st with lives := st.lives ++ ks
                                 trackers := st.trackers ++ [bs.length] }
    have cget : ∀ (a u : Nat), (st.trackers ++ [a]).getD u 0 =
        st.trackers.getD u 0 + if u = t then a else 0 := by
      intro a u
      simp only [List.getD_eq_getElem?_getD]
      by_cases hu : u = t
      · subst hu; simp [t]
      · rw [if_neg hu]
        by_cases hlt : u < st.trackers.length
        · rw [List.getElem?_append_left hlt]; rfl
        · have h1 : st.trackers.length ≤ u := by omega
          have h2 : u - st.trackers.length ≥ 1 := by
            have : u ≠ st.trackers.length := hu
            omega
          rw [List.getElem?_append_right h1, List.getElem?_eq_none (by simpa using h2),
            List.getElem?_eq_none h1]
          rfl
    have c1 := append_core (st' := st1) i.toCore fk rfl (by simp [st1]) (by simp [st1, t])
      (by intro u; simp only [State.count, st1, cget, hks])
      (fun L hL e => absurd e (hnew L hL))
    simp only [if_true, List.append_nil] at c1
    have c2 := append_core (st' := F) c1 fc rfl (by simp [F, st1]) (by simp [F, t])
      (by
        intro u
        simp only [State.count, F, st1, cget, hlen]
        by_cases hu : u = t
        · simp only [hu, if_true]; omega
        · simp only [hu, if_false])
      (by
        intro L hL e
        rcases List.mem_append.1 hL with hL | hL
        · exact absurd e (hnew L hL)
        · exact (fk.all L hL).1)
    have hst1 : st1.lives.length = st.lives.length + bs.length := by simp [st1, hks]
    simp only [Bool.false_eq_true, if_false, hst1, hlen] at c2
    have keep : ∀ s' ids' t', Kept bs.length st s' ids' t' → Kept bs.length F s' ids' t' := by
      intro s' ids' t' hk'
      have hne : t' ≠ t := by have := hk'.rng; simp only [t]; omega
      have k1 := hk'.append (st' := st1) fk rfl (by simp [st1]) (by simp [hne])
      exact k1.append (st' := F) fc rfl (by simp [st1, F]) (by simp)
    have keepB : Kept bs.length F s ids t :=
      hB.append fc rfl (by simp [F, B]) (by simp)
    refine ⟨{ c2 with kept := ?_, once := ?_ }, ?_, ⟨ids, by simp [F]⟩, fun p hp => by simp [F, hp],
      rfl, rfl⟩
    · intro p hp
      rcases List.mem_append.1 hp with hp | hp
      · obtain ⟨t', hk'⟩ := i.kept p hp
        exact ⟨t', keep _ _ _ hk'⟩
      · rw [List.mem_singleton.1 hp]
        exact ⟨t, keepB⟩
    · simp only [F, List.map_append, List.map_cons, List.map_nil]
      rw [List.nodup_append]
      refine ⟨i.once, by simp, ?_⟩
      intro a ha b hb
      rw [List.mem_singleton.1 hb]
      obtain ⟨p, hp, rfl⟩ := List.mem_map.1 ha
      exact hnone p hp
    · intro s' o L hL hLs
      have new : L.session = s → L.tracker = t → ∃ ids' t', (s', ids') ∈ F.stored ∧
          Kept bs.length F s' ids' t' ∧ L.tracker = t' := by
        intro h1 h2
        rw [← hLs, h1]
        exact ⟨ids, t, by simp [F], keepB, h2⟩
      rcases List.mem_append.1 hL with hL | hL
      · rcases List.mem_append.1 hL with hL | hL
        · obtain ⟨ids', t', hm, hk', ht'⟩ := o L hL hLs
          exact ⟨ids', t', by simp [F, hm], keep _ _ _ hk', ht'⟩
        · exact new (fk.all L hL).1 (fk.all L hL).2.1
      · exact new (fc.all L hL).1 (fc.all L hL).2.1

/-- Releasing one part of the stored key of session `s`. -/
def release1 (st : State) (l : Nat) (L : Life) : State :=
  { st.notify L with lives := st.lives.set l { L with handles := 0 } }.setCount L.tracker
    (st.count L.tracker - 1)

theorem release_cons (st : State) (l : Nat) (ls : List Nat) {L : Life}
    (h : st.lives[l]? = some L) : st.release (l :: ls) = (release1 st l L).release ls := by
  simp only [State.release, h, release1, notify_lives]
  congr 2
  simp only [State.count, notify_trackers]

theorem release1_lives (st : State) (l : Nat) (L : Life) :
    (release1 st l L).lives = st.lives.set l { L with handles := 0 } := rfl
theorem release1_stored (st : State) (l : Nat) (L : Life) :
    (release1 st l L).stored = st.stored := by simp [release1, State.setCount, notify_stored]
theorem release1_seen (st : State) (l : Nat) (L : Life) :
    (release1 st l L).seen = st.seen := by simp [release1, State.setCount, notify_seen]
theorem release1_len (st : State) (l : Nat) (L : Life) :
    (release1 st l L).trackers.length = st.trackers.length := by
  simp [release1, State.setCount, notify_trackers]
theorem release1_channel (st : State) (l : Nat) (L : Life) :
    ∃ c, (release1 st l L).channel = st.channel ++ c ∧ ∀ m, m ∈ c → m.1 = L.session := by
  simp only [release1, State.setCount, State.notify]
  split
  · exact ⟨[(L.session, L.buffer)], rfl, by simp⟩
  · exact ⟨[], by simp, by simp⟩

theorem release1_get {st : State} {l : Nat} {L : Life} (h : st.lives[l]? = some L) (k : Nat) :
    (release1 st l L).lives[k]? = if k = l then some { L with handles := 0 } else st.lives[k]? := by
  rw [release1_lives, List.getElem?_set]
  by_cases hk : l = k
  · subst hk
    simp [(List.getElem?_eq_some_iff.1 h).1]
  · have : ¬ k = l := fun h => hk h.symm
    simp [hk, this]

theorem release1_core {st : State} {h} (i : Core st h) {l : Nat} {L : Life}
    (hl : st.lives[l]? = some L) (hk : L.kept = true) (h1 : L.handles = 1)
    (hd : L.dying = false) : Core (release1 st l L) h := by
  have hm := List.mem_of_getElem? hl
  have like : ∀ M, M ∈ (release1 st l L).lives →
      ∃ K, K ∈ st.lives ∧ M.session = K.session ∧ M.tracker = K.tracker ∧ M.dying = K.dying ∧
        M.kept = K.kept ∧ M.handles ≤ K.handles := by
    intro M hM
    rw [release1_lives] at hM
    rcases mem_set_cases hM with rfl | hM
    · exact ⟨L, hm, rfl, rfl, rfl, rfl, by simp⟩
    · exact ⟨M, hM, rfl, rfl, rfl, rfl, Nat.le_refl _⟩
  have halive : L.alive = true := by simp [Life.alive, h1]
  have hdead : ({ L with handles := 0 } : Life).alive = false := by simp [Life.alive, hd]
  constructor
  · intro t
    have e := countP_replace (fun M : Life => decide (M.tracker = t) && M.alive) hl
      { L with handles := 0 }
    simp only [hdead, halive, Bool.and_true, Bool.and_false, Bool.false_eq_true, if_false,
      decide_eq_true_eq, Nat.add_zero] at e
    rw [release1_lives]
    have hr := i.rng L hm
    have hc : (release1 st l L).count t =
        if t = L.tracker then st.count L.tracker - 1 else st.count t := by
      rw [release1, count_setCount _ _ _ _ (by simpa [notify_trackers] using hr)]
      simp only [State.count, notify_trackers]
    rw [hc]
    have := i.cnt t
    by_cases ht : t = L.tracker
    · subst ht
      simp only [if_true] at e ⊢
      omega
    · have : ¬ L.tracker = t := fun x => ht x.symm
      simp only [this, if_false] at e
      simp only [ht, if_false]
      omega
  · intro M hM
    obtain ⟨K, hK, _, h2, _⟩ := like M hM
    rw [h2, release1_len]; exact i.rng K hK
  · intro k K hK
    rw [release1_get hl] at hK
    by_cases e : k = l
    · subst e
      rw [if_pos rfl] at hK
      cases hK
      have := i.hand k L hl
      simp only [hk, if_true] at this ⊢
      exact this
    · rw [if_neg e] at hK
      exact i.hand k K hK
  · intro p hp
    obtain ⟨K, hK, hs⟩ := i.sess p hp
    rw [release1_get hl]
    by_cases e : p.1 = l
    · rw [e, hl] at hK
      cases hK
      exact ⟨_, if_pos e, hs⟩
    · exact ⟨K, by rw [if_neg e]; exact hK, hs⟩
  · intro M hM M' hM' e
    obtain ⟨K, hK, a1, a2, _⟩ := like M hM
    obtain ⟨K', hK', b1, b2, _⟩ := like M' hM'
    rw [a1, b1]
    exact i.trk K hK K' hK' (by rw [← a2, ← b2, e])
  · intro M hM hd'
    obtain ⟨K, hK, _, _, a3, a4, a5⟩ := like M hM
    obtain ⟨c1, c2⟩ := i.dk K hK (a3 ▸ hd')
    exact ⟨a4.trans c1, by omega⟩

theorem release1_kept {n : Nat} {st : State} {h} (i : Core st h) {l : Nat} {L : Life}
    (hl : st.lives[l]? = some L) {s ids t} (hk : Kept n st s ids t) (hs : s ≠ L.session)
    (hn : n ≠ 0) : Kept n (release1 st l L) s ids t where
  len := hk.len
  nodup := hk.nodup
  life := by
    intro k hkm
    obtain ⟨K, hK, hr⟩ := hk.life k hkm
    refine ⟨K, ?_, hr⟩
    rw [release1_get hl, if_neg]
    · exact hK
    · intro e
      subst e
      rw [hl] at hK
      cases hK
      exact hs hr.1.symm
  cnt := by
    have hm := List.mem_of_getElem? hl
    have hne : L.tracker ≠ t := by
      intro e
      have : ids ≠ [] := by
        intro h0; rw [h0] at hk; exact hn hk.len.symm
      obtain ⟨k, hkm⟩ := List.exists_mem_of_ne_nil ids this
      obtain ⟨K, hK, h1, h2, _⟩ := hk.life k hkm
      apply hs
      rw [← h1]
      exact i.trk K (List.mem_of_getElem? hK) L hm (h2.trans e.symm)
    have e := countP_replace (fun M : Life => decide (M.tracker = t) && (M.alive && M.kept)) hl
      { L with handles := 0 }
    simp only [hne, decide_false, Bool.false_and, Bool.false_eq_true, if_false, Nat.add_zero] at e
    rw [release1_lives, e, hk.cnt]
  rng := by rw [release1_len]; exact hk.rng

/-- All that matters about releasing the key of session `s`. -/
theorem release_all {n : Nat} (hn : n ≠ 0) (s : Nat) : ∀ (ids : List Nat) (st : State) {h}
    (i : Core st h), ids.Nodup →
    (∀ l, l ∈ ids → ∃ L, st.lives[l]? = some L ∧ L.session = s ∧ L.handles = 1 ∧
      L.dying = false ∧ L.kept = true) →
    Core (st.release ids) h ∧
    (∀ s' ids' t', s' ≠ s → Kept n st s' ids' t' → Kept n (st.release ids) s' ids' t') ∧
    (st.release ids).stored = st.stored ∧ (st.release ids).seen = st.seen ∧
    (∃ c, (st.release ids).channel = st.channel ++ c ∧ ∀ m, m ∈ c → m.1 = s) ∧
    (∀ M, M ∈ (st.release ids).lives → ∃ K, K ∈ st.lives ∧ M.session = K.session ∧
      M.tracker = K.tracker) := by
  intro ids
  induction ids with
  | nil =>
    intro st h i _ _
    exact ⟨i, fun _ _ _ _ hk => hk, rfl, rfl, ⟨[], by simp [State.release], by simp⟩,
      fun M hM => ⟨M, hM, rfl, rfl⟩⟩
  | cons l ids ih =>
    intro st h i hnd hall
    obtain ⟨L, hL, h1, h2, h3, h4⟩ := hall l (by simp)
    rw [release_cons st l ids hL]
    rw [List.nodup_cons] at hnd
    obtain ⟨a, b, c, d, e, f⟩ := ih (release1 st l L) (release1_core i hL h4 h2 h3) hnd.2 (by
      intro k hk
      obtain ⟨K, hK, hr⟩ := hall k (by simp [hk])
      refine ⟨K, ?_, hr⟩
      rw [release1_get hL, if_neg]
      · exact hK
      · intro e; subst e; exact hnd.1 hk)
    refine ⟨a, ?_, c.trans (release1_stored st l L), d.trans (release1_seen st l L), ?_, ?_⟩
    · intro s' ids' t' hs hk
      exact b s' ids' t' hs (release1_kept i hL hk (h1 ▸ hs) hn)
    · obtain ⟨c1, hc1, hm1⟩ := release1_channel st l L
      obtain ⟨c2, hc2, hm2⟩ := e
      refine ⟨c1 ++ c2, by rw [hc2, hc1, List.append_assoc], ?_⟩
      intro m hm
      rcases List.mem_append.1 hm with hm | hm
      · exact (hm1 m hm).trans h1
      · exact hm2 m hm
    · intro M hM
      obtain ⟨K, hK, k1, k2⟩ := f M hM
      rw [release1_lives] at hK
      rcases mem_set_cases hK with rfl | hK
      · exact ⟨L, List.mem_of_getElem? hL, k1, k2⟩
      · exact ⟨K, hK, k1, k2⟩

theorem cleanup_inv {n : Nat} {st : State} {h} (i : Inv n st h) (s : Nat) (b : Bool) :
    Inv n (st.cleanup s b) h ∧
    (∀ s', (b = true → s' ≠ s) → Own n st s' → Own n (st.cleanup s b) s') ∧
    (∀ p, p ∈ st.stored → (b = true → p.1 ≠ s) → p ∈ (st.cleanup s b).stored) ∧
    (st.cleanup s b).seen = st.seen ∧
    (∃ c, (st.cleanup s b).channel = st.channel ++ c ∧ ∀ m, m ∈ c → m.1 = s ∧ b = true) := by
  have same : Inv n st h ∧ (∀ s', (b = true → s' ≠ s) → Own n st s' → Own n st s') ∧
      (∀ p, p ∈ st.stored → (b = true → p.1 ≠ s) → p ∈ st.stored) ∧ st.seen = st.seen ∧
      (∃ c, st.channel = st.channel ++ c ∧ ∀ m, m ∈ c → m.1 = s ∧ b = true) :=
    ⟨i, fun _ _ o => o, fun _ hp _ => hp, rfl, [], by simp, by simp⟩
  cases b with
  | false => exact same
  | true =>
    cases hf : st.stored.find? fun p => p.1 = s with
    | none => unfold State.cleanup; rw [if_pos rfl, hf]; exact same
    | some p =>
      obtain ⟨hpm, hps⟩ := find_stored hf
      obtain ⟨q, ids⟩ := p
      simp only at hps
      subst hps
      obtain ⟨t, hk⟩ := i.kept _ hpm
      simp only at hk
      unfold State.cleanup
      rw [if_pos rfl, hf]
      let st0 : State := { st with stored := st.stored.filter fun p => p.1 ≠ q }
      have i0 : Core st0 h := i.toCore.congr rfl rfl
      have hst : ∀ p, p ∈ st0.stored ↔ p ∈ st.stored ∧ p.1 ≠ q := by
        intro p; simp [st0]
      by_cases hn : n = 0
      · have : ids = [] := List.eq_nil_of_length_eq_zero (hk.len.trans hn)
        subst this
        show Inv n st0 h ∧ _
        refine ⟨{ i0 with kept := ?_, once := ?_ }, ?_, ?_, rfl, [], by simp [State.release], by simp⟩
        · intro p hp
          obtain ⟨t', hk'⟩ := i.kept p ((hst p).1 hp).1
          exact ⟨t', hk'.congr rfl rfl⟩
        · exact (i.once).sublist ((List.filter_sublist).map _)
        · intro s' hs o L hL hLs
          obtain ⟨ids', t', hm, hk', ht'⟩ := o L hL hLs
          exact ⟨ids', t', (hst _).2 ⟨hm, hs rfl⟩, hk'.congr rfl rfl, ht'⟩
        · intro p hp hps
          exact (hst p).2 ⟨hp, hps rfl⟩
      · obtain ⟨a, b, c, d, e, f⟩ := release_all hn q ids st0 i0 hk.nodup (by
          intro l hl
          obtain ⟨L, hL, h1, h2, h3, h4, h5⟩ := hk.life l hl
          exact ⟨L, hL, h1, h3, h4, h5⟩)
        refine ⟨{ a with kept := ?_, once := ?_ }, ?_, ?_, d, ?_⟩
        · intro p hp
          rw [c] at hp
          obtain ⟨hp1, hp2⟩ := (hst p).1 hp
          obtain ⟨t', hk'⟩ := i.kept p hp1
          exact ⟨t', b _ _ _ hp2 (hk'.congr rfl rfl)⟩
        · rw [c]
          exact (i.once).sublist ((List.filter_sublist).map _)
        · intro s' hs o L hL hLs
          obtain ⟨K, hK, k1, k2⟩ := f L hL
          obtain ⟨ids', t', hm, hk', ht'⟩ := o K hK (k1 ▸ hLs)
          exact ⟨ids', t', c ▸ (hst _).2 ⟨hm, hs rfl⟩, b _ _ _ (hs rfl) (hk'.congr rfl rfl),
            k2.trans ht'⟩
        · intro p hp hps
          rw [c]; exact (hst p).2 ⟨hp, hps rfl⟩
        · obtain ⟨x, hx, hm⟩ := e
          exact ⟨x, hx, fun m hm' => ⟨hm m hm', rfl⟩⟩

theorem receive_inv {n : Nat} {st : State} {h} (i : Inv n st h) :
    Inv n st.receive h ∧ ∀ s, Own n st s → Own n st.receive s := by
  unfold State.receive
  split
  · exact ⟨i, fun _ o => o⟩
  · exact ⟨i.congr rfl rfl rfl, fun s o => o.congr rfl rfl rfl⟩

theorem step_inv {bs : List Nat} {st : State} {h} (i : Inv bs.length st h) (op : Op) :
    Inv bs.length (st.step bs op) (handsStep bs st h op) ∧
    ∀ s, op ≠ .cleanup s true → Own bs.length st s → Own bs.length (st.step bs op) s := by
  cases op with
  | access s => exact ⟨(access_inv bs i s).1, fun s' _ => (access_inv bs i s).2.1 s'⟩
  | clone l => exact ⟨(clone_inv i l).1, fun s _ => (clone_inv i l).2 s⟩
  | drop l => exact ⟨(drop_inv i l).1, fun s _ => (drop_inv i l).2 s⟩
  | finish l => exact ⟨(finish_inv i l).1, fun s _ => (finish_inv i l).2 s⟩
  | cleanup s b =>
    refine ⟨(cleanup_inv i s b).1, fun s' hne o => (cleanup_inv i s b).2.1 s' ?_ o⟩
    rintro rfl rfl
    exact hne rfl
  | receive => exact ⟨(receive_inv i).1, fun s _ => (receive_inv i).2 s⟩

theorem inv_init (n : Nat) : Inv n {} [] := by
  constructor
  · constructor <;> simp [State.count]
  · intro p hp; cases hp
  · simp

theorem run_inv (bs : List Nat) (ops : List Op) :
    Inv bs.length (run bs ops) (hands bs ops) ∧
    ∀ s, NoEnd s ops → Own bs.length (run bs ops) s := by
  have gen : ∀ (ops : List Op) (st : State) (h : List (Nat × Nat)), Inv bs.length st h →
      Inv bs.length (ops.foldl (State.step bs) st) (handsFrom bs st h ops) ∧
      ∀ s, NoEnd s ops → Own bs.length st s → Own bs.length (ops.foldl (State.step bs) st) s := by
    intro ops
    induction ops with
    | nil => intro st h i; exact ⟨i, fun _ _ o => o⟩
    | cons op ops ih =>
      intro st h i
      obtain ⟨a, b⟩ := step_inv i op
      obtain ⟨c, d⟩ := ih _ _ a
      refine ⟨c, fun s hs o => d s ?_ (b s ?_ o)⟩
      · intro hm; exact hs (by simp [hm])
      · intro e; exact hs (by simp [e])
  obtain ⟨a, b⟩ := gen ops {} [] (inv_init _)
  exact ⟨a, fun s hs => b s hs (by intro L hL; cases hL)⟩

/-- What the usage check finds. -/
theorem usage_eq {n : Nat} {st : State} {h} (i : Inv n st h) {s : Nat} {ids t}
    (hm : (s, ids) ∈ st.stored) (hk : Kept n st s ids t) :
    st.usage s = (decide (n ≠ 0) && decide (st.count t > 1)) := by
  have hf := find_of_mem i.once hm
  simp only at hf
  simp only [State.usage, hf]
  by_cases hn : n = 0
  · have : ids = [] := List.eq_nil_of_length_eq_zero (hk.len.trans hn)
    subst this
    simp [hn]
  · have hne : ids ≠ [] := by intro h0; rw [h0] at hk; exact hn hk.len.symm
    have hall : ∀ l, l ∈ ids → (st.lives[l]?).any st.isInUse = decide (st.count t > 1) := by
      intro l hl
      obtain ⟨L, hL, h1, h2, _⟩ := hk.life l hl
      simp [hL, State.isInUse, h2]
    by_cases hc : st.count t > 1
    · obtain ⟨l, hl⟩ := List.exists_mem_of_ne_nil ids hne
      have : (ids.any fun l => (st.lives[l]?).any st.isInUse) = true := by
        rw [List.any_eq_true]; exact ⟨l, hl, by rw [hall l hl]; simpa using hc⟩
      rw [this]; simp [hn, hc]
    · have : (ids.any fun l => (st.lives[l]?).any st.isInUse) = false := by
        rw [List.any_eq_false]; intro l hl; rw [hall l hl]; simpa using hc
      rw [this]; simp [hc]

/-- The tracker counts the parts of the stored key and those of the users. -/
theorem count_split {n : Nat} {st : State} {h} (i : Inv n st h) {s ids t}
    (hk : Kept n st s ids t) :
    st.count t = n + st.lives.countP fun L => decide (L.tracker = t) && (L.alive && !L.kept) := by
  rw [i.cnt, ← hk.cnt]
  induction st.lives with
  | nil => rfl
  | cons L ls ih =>
    simp only [List.countP_cons, ih]
    cases L.kept <;> cases L.alive <;> cases decide (L.tracker = t) <;> simp <;> omega

/-- A user's life cycle of the session that is alive: somebody holds the key or drops it. -/
theorem users_iff {n : Nat} {st : State} {h} (i : Inv n st h) (hn : n ≠ 0) {s ids t}
    (hk : Kept n st s ids t) (o : Own n st s) (hm : (s, ids) ∈ st.stored) :
    0 < (st.lives.countP fun L => decide (L.tracker = t) && (L.alive && !L.kept)) ↔
      (∃ p, p ∈ h ∧ p.2 = s) ∨ BeingDropped st s := by
  rw [List.countP_pos_iff]
  constructor
  · rintro ⟨L, hL, hp⟩
    simp only [Bool.and_eq_true, decide_eq_true_eq, Bool.not_eq_true'] at hp
    obtain ⟨ht, ha, hkept⟩ := hp
    have hs : L.session = s := by
      have hne : ids ≠ [] := by intro h0; rw [h0] at hk; exact hn hk.len.symm
      obtain ⟨l, hl⟩ := List.exists_mem_of_ne_nil ids hne
      obtain ⟨K, hK, h1, h2, _⟩ := hk.life l hl
      rw [← h1]
      exact i.trk L hL K (List.mem_of_getElem? hK) (ht.trans h2.symm)
    simp only [Life.alive, Bool.or_eq_true, decide_eq_true_eq] at ha
    rcases ha with ha | ha
    · left
      obtain ⟨l, hl, hget⟩ := List.getElem_of_mem hL
      have hl' : st.lives[l]? = some L := by rw [List.getElem?_eq_getElem hl, hget]
      have := i.hand l L hl'
      rw [hkept] at this
      simp only [Bool.false_eq_true, if_false] at this
      obtain ⟨q, _, hq, hql⟩ := find_hand this ha
      obtain ⟨M, hM, hMs⟩ := i.sess q hq
      rw [hql, hl'] at hM
      cases hM
      exact ⟨q, hq, hMs.symm.trans hs⟩
    · exact .inr ⟨L, hL, hs, ha⟩
  · intro hor
    have fin : ∀ L, L ∈ st.lives → L.session = s → L.alive = true → L.kept = false →
        ∃ a, a ∈ st.lives ∧ (decide (a.tracker = t) && (a.alive && !a.kept)) = true := by
      intro L hL hs ha hkept
      obtain ⟨ids', t', hm', hk', ht'⟩ := o L hL hs
      have e := stored_unique i.once hm hm' rfl
      simp only [Prod.mk.injEq, true_and] at e
      subst e
      have htt : t' = t := by
        have hne : ids ≠ [] := by intro h0; rw [h0] at hk; exact hn hk.len.symm
        obtain ⟨l, hl⟩ := List.exists_mem_of_ne_nil ids hne
        obtain ⟨K, hK, h1, h2, _⟩ := hk.life l hl
        obtain ⟨K', hK', h1', h2', _⟩ := hk'.life l hl
        rw [hK] at hK'; cases hK'
        exact h2'.symm.trans h2
      exact ⟨L, hL, by simp [ht', htt, ha, hkept]⟩
    rcases hor with ⟨p, hp, hps⟩ | ⟨L, hL, hs, hd⟩
    · obtain ⟨L, hL, hLs⟩ := i.sess p hp
      have hpos : 0 < h.countP fun q => decide (q.1 = p.1) :=
        List.countP_pos_iff.2 ⟨p, hp, by simp⟩
      have hh := i.hand p.1 L hL
      cases hkept : L.kept with
      | true => rw [hkept] at hh; simp only [if_true] at hh; omega
      | false =>
        rw [hkept] at hh
        simp only [Bool.false_eq_true, if_false] at hh
        have hpos' : 0 < L.handles := by omega
        exact fin L (List.mem_of_getElem? hL) (hLs.trans hps) (by simp [Life.alive, hpos']) hkept
    · exact fin L hL hs (by simp [Life.alive, hd]) (i.dk L hL hd).1

end Verif.Keys
