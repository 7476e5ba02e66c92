import Verif.Scope.Lemmas

/-
At most one outcome per request: the invariant.
-/
set_option linter.unusedSimpArgs false
set_option linter.unusedVariables false
namespace Verif.Scope

variable {α κ : Type}

/-- The awaiting entries of a session. -/
def ents (s : Ent) (st : State α κ) : List (Awaiting κ) := st.awaiting.filter (fun a => a.sid = s)

/-- The shape of the entries of a session: at most the first one is an ending. -/
def EntOk (l : List (Awaiting κ)) (outs : List (Out α κ)) (staged first : Option α) : Prop :=
  l = [] ∨ ∃ a rest, l = a :: rest ∧ (∀ b ∈ rest, b.status = .earlyCleanup) ∧
    (a.status ≠ .earlyCleanup → (∀ b ∈ rest, b.flows = none) ∧ outs = []) ∧
    (a.status = .terminated → ∃ v, staged = some v ∧ first = some v)

structure Safe (st : State α κ) : Prop where
  nodup : (st.sessions.map (·.sid)).Nodup
  bS : ∀ x ∈ st.sessions, x.sid < st.next
  bA : ∀ a ∈ st.awaiting, a.sid < st.next
  bG : ∀ s, st.next ≤ s → st.staging s = none
  bO : ∀ s, st.next ≤ s → outcomes s st = []
  bF : ∀ s, st.next ≤ s → firstValue s st = none
  fresh : ∀ x ∈ st.sessions, x.status.Live → ents x.sid st = [] ∧ outcomes x.sid st = [] ∧
    st.staging x.sid = none ∧ firstValue x.sid st = none
  ent : ∀ s, EntOk (ents s st) (outcomes s st) (st.staging s) (firstValue s st)
  one : ∀ s, (outcomes s st).length ≤ 1
  resp : ∀ s p v, .respond s p v ∈ st.out → firstValue s st = some v

theorem EntOk.sublist {l l' : List (Awaiting κ)} {o : List (Out α κ)} {g f : Option α}
    (h : EntOk l o g f) (hs : l'.Sublist l) : EntOk l' o g f := by
  rcases h with rfl | ⟨a, rest, rfl, h1, h2, h3⟩
  · exact Or.inl (List.sublist_nil.mp hs)
  · cases hs with
    | cons _ hs =>
      cases l' with
      | nil => exact Or.inl rfl
      | cons b r =>
        have hb := h1 b (hs.subset (by simp))
        exact Or.inr ⟨b, r, rfl, fun c hc => h1 c (hs.subset (by simp [hc])),
          fun hne => absurd hb hne, fun ht => by rw [hb] at ht; cases ht⟩
    | @cons_cons r _ _ hs =>
      exact Or.inr ⟨a, r, rfl, fun c hc => h1 c (hs.subset hc),
        fun hne => ⟨fun c hc => (h2 hne).1 c (hs.subset hc), (h2 hne).2⟩, h3⟩

/-- A list without endings has a good shape whatever the rest is. -/
theorem EntOk.early {l : List (Awaiting κ)} (o : List (Out α κ)) (g f : Option α)
    (h : ∀ a ∈ l, a.status = .earlyCleanup) : EntOk l o g f := by
  cases l with
  | nil => exact Or.inl rfl
  | cons a rest =>
    exact Or.inr ⟨a, rest, rfl, fun b hb => h b (by simp [hb]),
      fun hne => absurd (h a (by simp)) hne, fun ht => by rw [h a (by simp)] at ht; cases ht⟩

theorem ents_mem {s : Ent} {st : State α κ} {a : Awaiting κ} :
    a ∈ ents s st ↔ a ∈ st.awaiting ∧ a.sid = s := by simp [ents]

theorem outcomes_emit (s : Ent) (st : State α κ) (o : Out α κ) :
    outcomes s (st.emit o) = outcomes s st ++ [o].filter (Out.isOutcomeOf s) := by
  simp [outcomes, State.emit, List.filter_append]

/-- Only the components that matter. -/
theorem Safe.congr {st st' : State α κ} (h : Safe st) (hs : st'.sessions = st.sessions)
    (ha : st'.awaiting = st.awaiting) (hg : st'.staging = st.staging) (ho : st'.out = st.out)
    (hv : st'.values = st.values) (hn : st.next ≤ st'.next) : Safe st' := by
  have e1 : ∀ s, ents s st' = ents s st := fun s => by simp [ents, ha]
  have e2 : ∀ s, outcomes s st' = outcomes s st := fun s => by simp [outcomes, ho]
  have e3 : ∀ s, firstValue s st' = firstValue s st := fun s => by simp [firstValue, hv]
  refine ⟨by rw [hs]; exact h.nodup, fun x hx => ?_, fun a hx => ?_, fun s hx => ?_,
    fun s hx => ?_, fun s hx => ?_, fun x hx hl => ?_, fun s => ?_, fun s => ?_, fun s p v hm => ?_⟩
  · exact Nat.lt_of_lt_of_le (h.bS x (hs ▸ hx)) hn
  · exact Nat.lt_of_lt_of_le (h.bA a (ha ▸ hx)) hn
  · rw [hg]; exact h.bG s (Nat.le_trans hn hx)
  · rw [e2]; exact h.bO s (Nat.le_trans hn hx)
  · rw [e3]; exact h.bF s (Nat.le_trans hn hx)
  · rw [e1, e2, e3, hg]; exact h.fresh x (hs ▸ hx) hl
  · rw [e1, e2, e3, hg]; exact h.ent s
  · rw [e2]; exact h.one s
  · rw [e3]; rw [ho] at hm; exact h.resp s p v hm

theorem Safe.frame {st st' : State α κ} (h : Safe st) (f : Frame st st') : Safe st' :=
  h.congr f.sessions f.awaiting f.staging f.out f.values (Nat.le_of_eq f.next.symm)

/-- An output that is no outcome. -/
theorem Safe.emit {st : State α κ} (h : Safe st) (o : Out α κ)
    (ho : ∀ s, o.isOutcomeOf s = false) : Safe (st.emit o) := by
  have e2 : ∀ s, outcomes s (st.emit o) = outcomes s st := fun s => by
    rw [outcomes_emit]; simp [ho s]
  exact ⟨h.nodup, h.bS, h.bA, h.bG, fun s hs => (e2 s).trans (h.bO s hs), h.bF,
    fun x hx hl => by rw [e2]; exact h.fresh x hx hl, fun s => by rw [e2]; exact h.ent s,
    fun s => by rw [e2]; exact h.one s, fun s p v hm => by
      simp only [State.emit, List.mem_append, List.mem_singleton] at hm
      rcases hm with hm | rfl
      · exact h.resp s p v hm
      · exact absurd (ho s) (by simp [Out.isOutcomeOf])⟩

/-- Sessions may be dropped or move on. -/
theorem Safe.sessions {st : State α κ} (h : Safe st) (l : List Scoped)
    (hn : (l.map (·.sid)).Nodup)
    (hl : ∀ x ∈ l, ∃ y ∈ st.sessions, y.sid = x.sid ∧ (x.status.Live → y.status.Live)) :
    Safe { st with sessions := l } := by
  refine ⟨hn, fun x hx => ?_, h.bA, h.bG, h.bO, h.bF, fun x hx hlive => ?_, h.ent, h.one, h.resp⟩
  · obtain ⟨y, hy, e, _⟩ := hl x hx
    rw [← e]; exact h.bS y hy
  · obtain ⟨y, hy, e, hh⟩ := hl x hx
    have := h.fresh y hy (hh hlive)
    rw [e] at this
    exact this

/-- Entries may be dropped. -/
theorem Safe.drop {st : State α κ} (h : Safe st) (l : List (Awaiting κ))
    (hl : l.Sublist st.awaiting) : Safe { st with awaiting := l } := by
  have e1 : ∀ s, (ents s { st with awaiting := l }).Sublist (ents s st) :=
    fun s => hl.filter _
  refine ⟨h.nodup, h.bS, fun a ha => h.bA a (hl.subset ha), h.bG, h.bO, h.bF,
    fun x hx hlive => ?_, fun s => (h.ent s).sublist (e1 s), h.one, h.resp⟩
  obtain ⟨h1, h2⟩ := h.fresh x hx hlive
  have := e1 x.sid
  rw [h1] at this
  exact ⟨List.sublist_nil.mp this, h2⟩

/-- A session that is over: it has no ending any more and is not live. -/
structure Over (s : Ent) (st : State α κ) : Prop where
  ents : ∀ a ∈ ents s st, a.status = .earlyCleanup
  sessions : ∀ x ∈ st.sessions, x.sid = s → ¬ x.status.Live
  bound : s < st.next

/-- The staged value of a session that is over does not matter. -/
theorem Safe.unstage {st : State α κ} (h : Safe st) {s : Ent} (ho : Over s st) :
    Safe { st with staging := fun i => if i = s then none else st.staging i } := by
  refine ⟨h.nodup, h.bS, h.bA, fun i hi => ?_, h.bO, h.bF, fun x hx hl => ?_, fun i => ?_, h.one,
    h.resp⟩
  · dsimp only; split
    · rfl
    · exact h.bG i hi
  · have := h.fresh x hx hl
    have hne : x.sid ≠ s := fun e => ho.sessions x hx e hl
    exact ⟨this.1, this.2.1, by simp [hne, this.2.2.1], this.2.2.2⟩
  · by_cases e : i = s
    · subst e
      exact EntOk.early _ _ _ ho.ents
    · have := h.ent i
      dsimp only; rw [if_neg e]; exact this

/-- The outcome of a session that is over. -/
theorem Safe.outcome {st : State α κ} (h : Safe st) {s : Ent} (ho : Over s st)
    (hn : outcomes s st = []) (o : Out α κ) (hs : o.isOutcomeOf s = true)
    (hv : ∀ s' p v, o = .respond s' p v → firstValue s st = some v) : Safe (st.emit o) := by
  have hoth : ∀ s', s' ≠ s → o.isOutcomeOf s' = false := by
    intro s' hne
    cases o <;> simp only [Out.isOutcomeOf, decide_eq_true_eq] at hs ⊢ <;>
      first
        | (simp only [decide_eq_false_iff_not]; intro e; exact hne (e.symm.trans hs))
        | exact absurd hs (by decide)
  have e2 : ∀ s', s' ≠ s → outcomes s' (st.emit o) = outcomes s' st := fun s' hne => by
    rw [outcomes_emit]; simp [hoth s' hne]
  have e3 : outcomes s (st.emit o) = [o] := by
    rw [outcomes_emit, hn]; simp [hs]
  refine ⟨h.nodup, h.bS, h.bA, h.bG, fun i hi => ?_, h.bF, fun x hx hl => ?_, fun i => ?_,
    fun i => ?_, fun i p v hm => ?_⟩
  · have hi' : st.next ≤ i := hi
    rw [e2 i (fun e => by subst e; exact absurd ho.bound (Nat.not_lt.mpr hi'))]
    exact h.bO i hi
  · rw [e2 x.sid (fun e => ho.sessions x hx e hl)]
    exact h.fresh x hx hl
  · by_cases e : i = s
    · subst e
      exact EntOk.early _ _ _ ho.ents
    · rw [e2 i e]; exact h.ent i
  · by_cases e : i = s
    · subst e; rw [e3]; simp
    · rw [e2 i e]; exact h.one i
  · simp only [State.emit, List.mem_append, List.mem_singleton] at hm
    rcases hm with hm | rfl
    · exact h.resp i p v hm
    · have : i = s := by simpa [Out.isOutcomeOf] using hs
      subst this
      exact hv i p v rfl

/-- The conditions under which an entry for the session may be added. -/
structure CanEnd (status : Finish κ) (s : Ent) (st : State α κ) : Prop where
  sessions : ∀ x ∈ st.sessions, x.sid = s → ¬ x.status.Live
  bound : s < st.next
  new : status ≠ .earlyCleanup → ents s st = [] ∧ outcomes s st = []
  value : status = .terminated → ∃ v, st.staging s = some v ∧ firstValue s st = some v

theorem ents_append (s : Ent) (st : State α κ) (l : List (Awaiting κ)) :
    ents s { st with awaiting := st.awaiting ++ l } = ents s st ++ l.filter (fun a => a.sid = s) := by
  simp [ents, List.filter_append]

theorem Safe.push {st : State α κ} (h : Safe st) {a : Awaiting κ} (hf : a.flows = none)
    (hc : CanEnd a.status a.sid st) : Safe { st with awaiting := st.awaiting ++ [a] } := by
  have e1 : ∀ i, i ≠ a.sid → ents i { st with awaiting := st.awaiting ++ [a] } = ents i st := by
    intro i hi
    rw [ents_append]
    simp [Ne.symm hi]
  have e2 : ents a.sid { st with awaiting := st.awaiting ++ [a] } = ents a.sid st ++ [a] := by
    rw [ents_append]; simp
  refine ⟨h.nodup, h.bS, fun b hb => ?_, h.bG, h.bO, h.bF, fun x hx hl => ?_, fun i => ?_, h.one,
    h.resp⟩
  · simp only [List.mem_append, List.mem_singleton] at hb
    rcases hb with hb | rfl
    · exact h.bA b hb
    · exact hc.bound
  · have := h.fresh x hx hl
    rw [e1 x.sid (fun e => hc.sessions x hx e hl)]
    exact this
  · by_cases e : i = a.sid
    · subst e
      rw [e2]
      by_cases he : a.status = .earlyCleanup
      · rcases h.ent a.sid with h0 | ⟨b, rest, h0, h1, h2, h3⟩
        · rw [h0]
          exact EntOk.early _ _ _ (by simpa using he)
        · rw [h0]
          refine Or.inr ⟨b, rest ++ [a], rfl, ?_, ?_, h3⟩
          · intro c hc'
            simp only [List.mem_append, List.mem_singleton] at hc'
            rcases hc' with hc' | rfl
            · exact h1 c hc'
            · exact he
          · intro hne
            refine ⟨?_, (h2 hne).2⟩
            intro c hc'
            simp only [List.mem_append, List.mem_singleton] at hc'
            rcases hc' with hc' | rfl
            · exact (h2 hne).1 c hc'
            · exact hf
      · obtain ⟨h0, h1⟩ := hc.new he
        rw [h0]
        exact Or.inr ⟨a, [], rfl, by simp, fun _ => ⟨by simp, h1⟩, hc.value⟩
    · rw [e1 i e]; exact h.ent i

/-- What `cleanOne` does apart from the bookkeeping of clean requests. -/
theorem cleanOne_frame (cfg : Cfg) (c : Cleanup) (status : Finish κ) (now : List (Ent × Ent))
    (s : Ent) (st st' : State α κ) (h : cleanOne cfg c status now s st = some st') :
    ∃ p, st.alive s = some p ∧
      Frame { st with awaiting := st.awaiting ++ [{ sid := s, parent := p, cleanup := c, status }] } st' := by
  unfold cleanOne at h
  split at h
  · cases h
  · rename_i p hp
    refine ⟨p, hp, ?_⟩
    dsimp only at h
    split at h
    · cases h
      exact ⟨rfl, rfl, rfl, rfl, rfl, rfl, rfl, rfl, rfl, rfl, rfl, rfl⟩
    · cases h
      have := cleanNodes_frame cfg.self s c.id now cfg.nodes
        { st with
          awaiting := st.awaiting ++ [{ sid := s, parent := p, cleanup := c, status }]
          contents := fun i => if i = c.id then some cfg.nodes else st.contents i }
      exact ⟨this.1, this.2, this.3, this.4, this.5, this.6, this.7, this.8, this.9, this.10,
        this.11, this.12⟩

theorem CanEnd.congr {status : Finish κ} {s : Ent} {st st' : State α κ} (h : CanEnd status s st)
    (hs : st'.sessions = st.sessions) (he : ents s st' = ents s st)
    (hg : st'.staging = st.staging) (ho : st'.out = st.out) (hv : st'.values = st.values)
    (hn : st'.next = st.next) : CanEnd status s st' := by
  have e2 : outcomes s st' = outcomes s st := by simp [outcomes, ho]
  have e3 : firstValue s st' = firstValue s st := by simp [firstValue, hv]
  exact ⟨by rw [hs]; exact h.sessions, by rw [hn]; exact h.bound, by rw [he, e2]; exact h.new,
    by rw [hg, e3]; exact h.value⟩

theorem cleanupEntire_safe (cfg : Cfg) (c : Cleanup) (status : Finish κ) (now : List (Ent × Ent)) :
    ∀ (ss : List Ent) (st : State α κ), Safe st → ss.Nodup → (∀ s ∈ ss, CanEnd status s st) →
      Safe (cleanupEntire cfg c status now ss st) := by
  intro ss
  induction ss with
  | nil => intro st h _ _; exact h
  | cons s ss ih =>
    intro st h hn hc
    unfold cleanupEntire
    split
    · exact h.emit _ (fun _ => rfl)
    · rename_i st' hst
      obtain ⟨p, hp, hf⟩ := cleanOne_frame cfg c status now s st st' hst
      have hp' := Safe.push (a := { sid := s, parent := p, cleanup := c, status }) h rfl
        (hc s (by simp))
      refine ih st' (hp'.frame hf) (List.nodup_cons.mp hn).2 ?_
      intro s' hs'
      have hne : s' ≠ s := fun e => (List.nodup_cons.mp hn).1 (e ▸ hs')
      refine (hc s' (by simp [hs'])).congr hf.sessions ?_ hf.staging hf.out hf.values hf.next
      show st'.awaiting.filter _ = _
      rw [hf.awaiting]
      simp [ents, List.filter_append, Ne.symm hne]

/-- A cleanup of the sessions that left the live state. -/
theorem transition_safe (cfg : Cfg) (c : Cleanup) (status : Finish κ) (now : List (Ent × Ent))
    (p : Scoped → Bool) (f : Status → Status × Bool) (st : State α κ) (h : Safe st)
    (hf : ∀ x ∈ st.sessions, p x = true → (f x.status).1.Live → x.status.Live)
    (hg : ∀ x ∈ st.sessions, p x = true → (f x.status).2 = true → ¬ (f x.status).1.Live ∧
      (status ≠ .earlyCleanup → x.status.Live))
    (ht : status ≠ .terminated) :
    Safe (cleanupEntire cfg c status now (transition p f st.sessions).2
      { st with sessions := (transition p f st.sessions).1 }) := by
  have hsid : ((transition p f st.sessions).1).map (·.sid) = st.sessions.map (·.sid) := by
    simp only [transition, List.map_map]
    apply List.map_congr_left
    intro x _
    simp only [Function.comp]
    split <;> rfl
  have hs : Safe { st with sessions := (transition p f st.sessions).1 } := by
    refine h.sessions _ (by rw [hsid]; exact h.nodup) ?_
    intro x hx
    simp only [transition, List.mem_map] at hx
    obtain ⟨y, hy, rfl⟩ := hx
    refine ⟨y, hy, by split <;> rfl, ?_⟩
    split
    · exact hf y hy ‹_›
    · exact id
  have hsub : ((transition p f st.sessions).2).Sublist (st.sessions.map (·.sid)) := by
    simp only [transition]
    exact (List.filter_sublist).map _
  refine cleanupEntire_safe cfg c status now _ _ hs (h.nodup.sublist hsub) ?_
  intro s hs'
  simp only [transition, List.mem_map, List.mem_filter, Bool.and_eq_true] at hs'
  obtain ⟨y, ⟨hy, hpy, hfy⟩, rfl⟩ := hs'
  obtain ⟨hnl, hl⟩ := hg y hy hpy hfy
  refine ⟨?_, h.bS y hy, fun hne => ?_, fun e => absurd e ht⟩
  · intro x hx hxs
    simp only [transition, List.mem_map] at hx
    obtain ⟨z, hz, rfl⟩ := hx
    have hzs : z.sid = y.sid := by
      rw [← hxs]; split <;> rfl
    have : z = y := by
      exact eq_of_nodup_map _ h.nodup hz hy hzs
    subst this
    rw [if_pos hpy]
    exact hnl
  · have := h.fresh y hy (hl hne)
    exact ⟨this.1, this.2.1⟩

theorem transitionOne_spec (s : Ent) (f : Status → Status × Bool) :
    ∀ (l : List Scoped), match transitionOne s f l with
      | none => ∀ x ∈ l, x.sid ≠ s
      | some (l', b) => ∃ l1 x l2, l = l1 ++ x :: l2 ∧ x.sid = s ∧ (∀ y ∈ l1, y.sid ≠ s) ∧
          l' = l1 ++ { x with status := (f x.status).1 } :: l2 ∧ b = (f x.status).2 := by
  intro l
  induction l with
  | nil => simp [transitionOne]
  | cons x xs ih =>
    unfold transitionOne
    by_cases hx : x.sid = s
    · rw [if_pos hx]
      exact ⟨[], x, xs, rfl, hx, by simp, rfl, rfl⟩
    · rw [if_neg hx]
      cases ht : transitionOne s f xs with
      | none =>
        rw [ht] at ih
        intro y hy
        rcases List.mem_cons.mp hy with rfl | hy
        · exact hx
        · exact ih y hy
      | some r =>
        obtain ⟨l', b⟩ := r
        rw [ht] at ih
        obtain ⟨l1, z, l2, rfl, h2, h3, rfl, h5⟩ := ih
        exact ⟨x :: l1, z, l2, rfl, h2, by simpa [hx] using h3, rfl, h5⟩

theorem Safe.addValue {st : State α κ} (h : Safe st) {s : Ent} (v : α) (hb : s < st.next)
    (hl : ∀ x ∈ st.sessions, x.sid = s → ¬ x.status.Live) :
    Safe { st with values := st.values ++ [(s, v)] } := by
  have e3 : ∀ i, i ≠ s → firstValue i { st with values := st.values ++ [(s, v)] } = firstValue i st := by
    intro i hi
    simp only [firstValue, List.find?_append]
    cases st.values.find? (fun v => v.1 = i) <;> simp [Ne.symm hi]
  have e4 : ∀ i w, firstValue i st = some w →
      firstValue i { st with values := st.values ++ [(s, v)] } = some w := by
    intro i w hw
    simp only [firstValue, List.find?_append] at hw ⊢
    cases hx : st.values.find? (fun v => v.1 = i) <;> simp_all
  refine ⟨h.nodup, h.bS, h.bA, h.bG, h.bO, fun i hi => ?_, fun x hx hlive => ?_, fun i => ?_, h.one,
    fun i p w hm => e4 i w (h.resp i p w hm)⟩
  · have hi' : st.next ≤ i := hi
    rw [e3 i (fun e => by subst e; exact absurd hb (Nat.not_lt.mpr hi'))]
    exact h.bF i hi
  · rw [e3 x.sid (fun e => hl x hx e hlive)]
    exact h.fresh x hx hlive
  · rcases h.ent i with h0 | ⟨a, rest, h0, h1, h2, h3⟩
    · exact Or.inl h0
    · refine Or.inr ⟨a, rest, h0, h1, h2, fun ht => ?_⟩
      obtain ⟨w, hw1, hw2⟩ := h3 ht
      exact ⟨w, hw1, e4 i w hw2⟩

theorem Safe.stage {st : State α κ} (h : Safe st) {s : Ent} (v : α) (hb : s < st.next)
    (hl : ∀ x ∈ st.sessions, x.sid = s → ¬ x.status.Live) (hn : st.staging s = none) :
    Safe { st with staging := fun i => if i = s then some v else st.staging i } := by
  refine ⟨h.nodup, h.bS, h.bA, fun i hi => ?_, h.bO, h.bF, fun x hx hlive => ?_, fun i => ?_, h.one,
    h.resp⟩
  · have hi' : st.next ≤ i := hi
    dsimp only
    rw [if_neg (fun e => by subst e; exact absurd hb (Nat.not_lt.mpr hi'))]
    exact h.bG i hi
  · have := h.fresh x hx hlive
    have hne : x.sid ≠ s := fun e => hl x hx e hlive
    exact ⟨this.1, this.2.1, by simp [hne, this.2.2.1], this.2.2.2⟩
  · dsimp only
    rcases h.ent i with h0 | ⟨a, rest, h0, h1, h2, h3⟩
    · exact Or.inl h0
    · refine Or.inr ⟨a, rest, h0, h1, h2, fun ht => ?_⟩
      obtain ⟨w, hw1, hw2⟩ := h3 ht
      have hne : i ≠ s := fun e => by subst e; rw [hn] at hw1; cases hw1
      exact ⟨w, by rw [if_neg hne]; exact hw1, hw2⟩

/-- A transition of one session. -/
theorem Safe.one_session {st : State α κ} (h : Safe st) {s : Ent} {f : Status → Status × Bool}
    {l' : List Scoped} {b : Bool} (ht : transitionOne s f st.sessions = some (l', b))
    (hf : ∀ x : Status, ¬ (f x).1.Live) :
    Safe { st with sessions := l' } ∧ (∀ x ∈ l', x.sid = s → ¬ x.status.Live) ∧
    ∃ x ∈ st.sessions, x.sid = s ∧ b = (f x.status).2 := by
  have := transitionOne_spec s f st.sessions
  rw [ht] at this
  obtain ⟨l1, x, l2, hl, hx, hl1, rfl, rfl⟩ := this
  have hsid : (l1 ++ { x with status := (f x.status).1 } :: l2).map (·.sid) =
      st.sessions.map (·.sid) := by rw [hl]; simp
  refine ⟨h.sessions _ (by rw [hsid]; exact h.nodup) ?_, ?_, x, by rw [hl]; simp, hx, rfl⟩
  · intro y hy
    simp only [List.mem_append, List.mem_cons] at hy
    rcases hy with hy | rfl | hy
    · exact ⟨y, by rw [hl]; simp [hy], rfl, id⟩
    · exact ⟨x, by rw [hl]; simp, rfl, fun hh => absurd hh (hf _)⟩
    · exact ⟨y, by rw [hl]; simp [hy], rfl, id⟩
  · intro y hy hys
    simp only [List.mem_append, List.mem_cons] at hy
    have hnd := h.nodup
    rw [hl] at hnd
    rcases hy with hy | rfl | hy
    · exact absurd hys (hl1 y hy)
    · exact hf _
    · simp only [List.map_append, List.map_cons, List.nodup_append, List.nodup_cons] at hnd
      exact absurd (List.mem_map.mpr ⟨y, hy, hys.trans hx.symm⟩) hnd.2.1.1

theorem cancelled_not_live (x : Status) : ¬ (x.toCancelled).1.Live := by
  cases x <;> exact id

theorem finished_not_live (x : Status) : ¬ (x.toFinished).1.Live := by
  cases x <;> exact id

theorem validate_safe (cfg : Cfg) (s : Ent) (u : Option κ) (now : List (Ent × Ent))
    (st : State α κ) (h : Safe st) : Safe (validate cfg s u now st) := by
  unfold validate
  cases u with
  | none => exact h
  | some k =>
    dsimp only
    split
    · exact h
    · rename_i l' b ht
      obtain ⟨hs, hnl, x, hx, hxs, hb⟩ := h.one_session ht cancelled_not_live
      split
      · rename_i hc
        refine cleanupEntire_safe _ _ _ _ _ _ hs (by simp) ?_
        intro s' hs'
        simp only [List.mem_singleton] at hs'
        subst hs'
        have hlive : x.status.Live := by
          rw [hc] at hb
          revert hb; cases x.status <;> simp [Status.toCancelled, Status.Live]
        have := h.fresh x hx hlive
        rw [hxs] at this
        exact ⟨hnl, by rw [← hxs]; exact h.bS x hx, fun _ => ⟨this.1, this.2.1⟩,
          fun e => by cases e⟩
      · exact hs

theorem terminate_safe (cfg : Cfg) (s : Ent) (v : α) (now : List (Ent × Ent))
    (st : State α κ) (h : Safe st) (hb : s < st.next) : Safe (terminate cfg s v now st) := by
  unfold terminate
  dsimp only
  cases hg : st.staging s with
  | some w =>
    dsimp only
    refine h.addValue v hb ?_
    intro x hx hxs hl
    have := (h.fresh x hx hl).2.2.1
    rw [hxs, hg] at this
    cases this
  | none =>
    dsimp only
    have hspec := transitionOne_spec s Status.toFinished st.sessions
    cases ht : transitionOne s Status.toFinished st.sessions with
    | none =>
      rw [ht] at hspec
      have hnl : ∀ x ∈ st.sessions, x.sid = s → ¬ x.status.Live := fun x hx e => absurd e (hspec x hx)
      exact Safe.emit (Safe.stage (Safe.addValue h v hb hnl) v hb hnl hg) _ (fun _ => rfl)
    | some r =>
      obtain ⟨l', b⟩ := r
      obtain ⟨hs, hnl, x, hx, hxs, hbb⟩ := h.one_session ht finished_not_live
      have hs2 := Safe.stage (Safe.addValue hs v hb hnl) v hb hnl hg
      dsimp only
      split
      · rename_i hc
        refine cleanupEntire_safe _ _ _ _ _ _ hs2 (by simp) ?_
        intro s' hs'
        simp only [List.mem_singleton] at hs'
        subst hs'
        have hlive : x.status.Live := by
          rw [hc] at hbb
          revert hbb; cases x.status <;> simp [Status.toFinished, Status.Live]
        have := h.fresh x hx hlive
        rw [hxs] at this
        refine ⟨hnl, hb, fun _ => ⟨this.1, this.2.1⟩, fun _ => ⟨v, by simp, ?_⟩⟩
        have h3 := this.2.2.2
        simp only [firstValue, Option.map_eq_none_iff] at h3
        simp [firstValue, List.find?_append, h3]
      · exact hs2

theorem cancelOne_safe (cfg : Cfg) (s : Ent) (k : κ) (now : List (Ent × Ent))
    (st : State α κ) (h : Safe st) : Safe (cancelOne cfg s k now st) := by
  unfold cancelOne
  refine transition_safe cfg _ _ now _ _ st h ?_ ?_ (by simp)
  · intro x _ _ hl; exact absurd hl (cancelled_not_live _)
  · intro x _ _ hc
    refine ⟨cancelled_not_live _, fun _ => ?_⟩
    revert hc; cases x.status <;> simp [Status.toCancelled, Status.Live]

theorem cancelAll_safe (cfg : Cfg) (k : κ) (now : List (Ent × Ent)) :
    ∀ (ss : List Ent) (st : State α κ), Safe st → Safe (cancelAll cfg k now ss st) := by
  intro ss
  induction ss with
  | nil => intro st h; exact h
  | cons s ss ih => intro st h; exact ih _ (cancelOne_safe cfg s k now st h)

theorem begin_safe (cfg : Cfg) (p : Ent) (bl : Bool) (c u : Option κ) (now : List (Ent × Ent))
    (st : State α κ) (h : Safe st) : Safe (beginScope cfg p bl c u now st) := by
  have h1 : Safe { st with
      next := st.next + 1
      sessions := st.sessions ++ [{ parent := p, sid := st.next, status := .ongoing }] } := by
    have hne : ∀ x ∈ st.sessions, x.sid ≠ st.next := fun x hx => Nat.ne_of_lt (h.bS x hx)
    refine ⟨?_, ?_, fun a ha => Nat.lt_succ_of_lt (h.bA a ha), fun s hs => h.bG s (Nat.le_of_succ_le hs),
      fun s hs => h.bO s (Nat.le_of_succ_le hs), fun s hs => h.bF s (Nat.le_of_succ_le hs), ?_,
      h.ent, h.one, h.resp⟩
    · simp only [List.map_append, List.map_cons, List.map_nil]
      refine List.nodup_append.mpr ⟨h.nodup, by simp, ?_⟩
      intro a ha b hb
      simp only [List.mem_singleton] at hb
      obtain ⟨x, hx, rfl⟩ := List.mem_map.mp ha
      rw [hb]; exact hne x hx
    · intro x hx
      simp only [List.mem_append, List.mem_singleton] at hx
      rcases hx with hx | rfl
      · exact Nat.lt_succ_of_lt (h.bS x hx)
      · exact Nat.lt_succ_self _
    · intro x hx hl
      simp only [List.mem_append, List.mem_singleton] at hx
      rcases hx with hx | rfl
      · exact h.fresh x hx hl
      · refine ⟨?_, h.bO _ (Nat.le_refl _), h.bG _ (Nat.le_refl _), h.bF _ (Nat.le_refl _)⟩
        show st.awaiting.filter _ = []
        rw [List.filter_eq_nil_iff]
        intro a ha
        have := h.bA a ha
        simpa using Nat.ne_of_lt this
  have h2 : Safe { st with
      next := st.next + 1
      begun := st.begun ++ [(st.next, p)]
      alive := fun i => if i = st.next then some p else st.alive i
      exits := fun i => if i = st.next ∧ cfg.workflow then some bl else st.exits i
      sessions := st.sessions ++ [{ parent := p, sid := st.next, status := .ongoing }] } :=
    h1.congr rfl rfl rfl rfl rfl (Nat.le_refl _)
  unfold beginScope
  dsimp only
  split
  · exact cancelOne_safe _ _ _ _ _ h2
  · exact validate_safe _ _ _ _ _ h2
  · exact h2
  · split
    · exact cancelOne_safe _ _ _ _ _ (h2.congr rfl rfl rfl rfl rfl (Nat.le_refl _))
    · exact (validate_safe _ _ _ _ _ h2).congr rfl rfl rfl rfl rfl (Nat.le_refl _)

theorem dynCleanup_safe (cfg : Cfg) (c : Cleanup) (now : List (Ent × Ent)) (st : State α κ)
    (h : Safe st) (hl : NoLateCleanup cfg st (.cleanup c now)) :
    Safe (dynCleanup cfg c now st) := by
  have key := transition_safe cfg c .earlyCleanup now (fun p => p.parent == c.session)
    (Status.toCleanup cfg.uninterruptible) st h
    (by
      intro x hx hp hlive
      have hp' : x.parent = c.session := by simpa using hp
      cases hu : cfg.uninterruptible with
      | false =>
        rw [hu] at hlive
        revert hlive; cases x.status <;> simp [Status.toCleanup, Status.Live]
      | true =>
        have := hl hu x hx hp'
        rw [hu] at hlive
        revert hlive this; cases x.status <;> simp [Status.toCleanup, Status.Live, Status.Ended])
    (by
      intro x hx hp hc
      refine ⟨?_, fun e => absurd rfl e⟩
      cases hu : cfg.uninterruptible <;> rw [hu] at hc <;> revert hc <;>
        cases x.status <;> simp [Status.toCleanup, Status.Live])
    (by simp)
  unfold dynCleanup
  dsimp only
  split
  · rename_i he
    have he' : (transition (fun p => p.parent == c.session) (Status.toCleanup cfg.uninterruptible)
      st.sessions).2 = [] := by simpa using he
    rw [he'] at key
    exact Safe.emit key _ (fun _ => rfl)
  · exact key

theorem getElem?_split {β : Type} : ∀ {l : List β} {i : Nat} {a : β}, l[i]? = some a →
    ∃ l1 l2, l = l1 ++ a :: l2 ∧ l1.length = i ∧ l.eraseIdx i = l1 ++ l2 ∧
      ∀ b, l.set i b = l1 ++ b :: l2 := by
  intro l
  induction l with
  | nil => intro i a h; simp at h
  | cons x xs ih =>
    intro i a h
    cases i with
    | zero =>
      simp only [List.getElem?_cons_zero, Option.some.injEq] at h
      subst h
      exact ⟨[], xs, rfl, rfl, rfl, fun _ => rfl⟩
    | succ i =>
      simp only [List.getElem?_cons_succ] at h
      obtain ⟨l1, l2, h1, h2, h3, h4⟩ := ih h
      exact ⟨x :: l1, l2, by rw [h1]; rfl, by simp [h2], by simp [h3], fun b => by simp [h4]⟩

/-- The entry that is finalized has its cleanup workflows done; so it is the only ending of
its session. -/
theorem Safe.begunEntry {st : State α κ} (h : Safe st) {l1 l2 : List (Awaiting κ)}
    {a : Awaiting κ} (hl : st.awaiting = l1 ++ a :: l2) (hf : a.flows ≠ none) :
    (∀ b ∈ l1 ++ l2, b.sid = a.sid → b.status = .earlyCleanup) ∧
    (a.status ≠ .earlyCleanup → outcomes a.sid st = []) ∧
    (a.status = .terminated → ∃ v, st.staging a.sid = some v ∧ firstValue a.sid st = some v) ∧
    (∀ x ∈ st.sessions, x.sid = a.sid → ¬ x.status.Live) := by
  have hents : ents a.sid st = l1.filter (fun b => b.sid = a.sid) ++ a ::
      l2.filter (fun b => b.sid = a.sid) := by
    simp [ents, hl, List.filter_append]
  have hnl : ∀ x ∈ st.sessions, x.sid = a.sid → ¬ x.status.Live := by
    intro x hx e hlive
    have := (h.fresh x hx hlive).1
    rw [e, hents] at this
    simp at this
  rcases h.ent a.sid with h0 | ⟨b, rest, h0, h1, h2, h3⟩
  · rw [hents] at h0; simp at h0
  · rw [hents] at h0
    cases hl1 : l1.filter (fun b => b.sid = a.sid) with
    | nil =>
      rw [hl1] at h0
      simp only [List.nil_append, List.cons.injEq] at h0
      obtain ⟨rfl, rfl⟩ := h0
      refine ⟨?_, fun hne => (h2 hne).2, h3, hnl⟩
      intro b hb hbs
      rcases List.mem_append.mp hb with hb | hb
      · have : b ∈ l1.filter (fun b => b.sid = a.sid) := by simp [hb, hbs]
        rw [hl1] at this; cases this
      · exact h1 b (by simp [hb, hbs])
    | cons c r =>
      rw [hl1] at h0
      simp only [List.cons_append, List.cons.injEq] at h0
      obtain ⟨rfl, rfl⟩ := h0
      have ha : a.status = .earlyCleanup := h1 a (by simp)
      have hc : c.status = .earlyCleanup := by
        false_or_by_contra
        rename_i hc
        exact hf ((h2 hc).1 a (by simp))
      refine ⟨?_, fun hne => absurd ha hne, (fun ht => by rw [ha] at ht; cases ht), hnl⟩
      intro b hb hbs
      have hb' : b = c ∨ b ∈ r ++ a :: l2.filter (fun b => b.sid = a.sid) := by
        rcases List.mem_append.mp hb with hb | hb
        · have : b ∈ l1.filter (fun b => b.sid = a.sid) := by simp [hb, hbs]
          rw [hl1] at this
          rcases List.mem_cons.mp this with h | h
          · exact Or.inl h
          · exact Or.inr (by simp [h])
        · exact Or.inr (by simp [hb, hbs])
      rcases hb' with rfl | hb'
      · exact hc
      · exact h1 b hb'

theorem leave_safe (s : Ent) (bl : Bool) (st : State α κ) (h : Safe st) (ho : Over s st) :
    Safe (leave s bl st) := by
  unfold leave
  dsimp only
  have h1 := h.unstage ho
  split
  · exact (Safe.emit h1 (.unblock s) (fun _ => rfl)).congr rfl rfl rfl rfl rfl (Nat.le_refl _)
  · exact h1.congr rfl rfl rfl rfl rfl (Nat.le_refl _)

theorem deliver_safe (cfg : Cfg) (a : Awaiting κ) (st : State α κ) (h : Safe st)
    (ho : Over a.sid st)
    (ht : a.status = .terminated → outcomes a.sid st = [] ∧
      ∃ v, st.staging a.sid = some v ∧ firstValue a.sid st = some v) :
    Safe (deliver cfg a st) := by
  have h1 : Safe { st with exits := fun i => if i = a.sid then none else st.exits i } :=
    h.congr rfl rfl rfl rfl rfl (Nat.le_refl _)
  have ho1 : Over a.sid { st with exits := fun i => if i = a.sid then none else st.exits i } :=
    ⟨ho.ents, ho.sessions, ho.bound⟩
  unfold deliver
  dsimp only
  split
  · exact Safe.emit h1 _ (fun _ => rfl)
  · split
    · rename_i hter
      have hter' : a.status = .terminated := by
        revert hter; cases a.status <;> simp [Finish.isTerminated]
      obtain ⟨hout, v, hv1, hv2⟩ := ht hter'
      rw [hv1]
      dsimp only
      have h2 := Safe.outcome h1 ho1 hout (.respond a.sid a.parent v) (by simp [Out.isOutcomeOf])
        (by intro s' p w e; injection e with _ _ e3; rw [← e3]; exact hv2)
      exact leave_safe _ _ _ h2 ⟨ho.ents, ho.sessions, ho.bound⟩
    · exact leave_safe _ _ _ h1 ho1

theorem finalize_safe (cfg : Cfg) (i : Nat) (st : State α κ) (h : Safe st)
    (hf : ∀ a, st.awaiting[i]? = some a → a.flows ≠ none) : Safe (finalize cfg i st) := by
  unfold finalize
  split
  · exact h
  · rename_i a ha
    obtain ⟨l1, l2, hl, hi, her, _⟩ := getElem?_split ha
    obtain ⟨g1, g2, g3, g4⟩ := h.begunEntry hl (hf a ha)
    have hb : a.sid < st.next := h.bA a (by rw [hl]; simp)
    -- after the entry has been ended
    have hE : ∃ st1, endEntry i a st = st1 ∧ Safe st1 ∧ Over a.sid st1 ∧
        (a.status = .terminated → outcomes a.sid st1 = [] ∧
          ∃ v, st1.staging a.sid = some v ∧ firstValue a.sid st1 = some v) := by
      refine ⟨_, rfl, ?_⟩
      have hsub : (st.awaiting.eraseIdx i).Sublist st.awaiting := List.eraseIdx_sublist _ _
      have hover : Over a.sid { st with awaiting := st.awaiting.eraseIdx i } := by
        refine ⟨?_, g4, hb⟩
        intro b hb
        rw [ents_mem] at hb
        rw [her] at hb
        exact g1 b hb.1 hb.2
      unfold endEntry
      cases hst : a.status with
      | earlyCleanup =>
        dsimp only
        refine ⟨h, ⟨?_, g4, hb⟩, by intro e; cases e⟩
        intro b hb
        rw [ents_mem, hl] at hb
        simp only [List.mem_append, List.mem_cons] at hb
        rcases hb.1 with hb1 | rfl | hb1
        · exact g1 b (by simp [hb1]) hb.2
        · exact hst
        · exact g1 b (by simp [hb1]) hb.2
      | terminated =>
        dsimp only
        exact ⟨h.drop _ hsub, hover, fun _ => ⟨g2 (by rw [hst]; simp), g3 hst⟩⟩
      | cancelled k ks =>
        dsimp only
        refine ⟨?_, ⟨hover.ents, hover.sessions, hover.bound⟩, by intro e; cases e⟩
        exact Safe.outcome (h.drop _ hsub) hover (g2 (by rw [hst]; simp)) _
          (by simp [Out.isOutcomeOf]) (by intro _ _ _ e; cases e)
    obtain ⟨st1, e1, s1, o1, t1⟩ := hE
    rw [e1]
    -- the parent may be notified
    have hN : Safe (notifyParent a st1) ∧ Over a.sid (notifyParent a st1) ∧
        (a.status = .terminated → outcomes a.sid (notifyParent a st1) = [] ∧
          ∃ v, (notifyParent a st1).staging a.sid = some v ∧
            firstValue a.sid (notifyParent a st1) = some v) := by
      unfold notifyParent
      split
      · refine ⟨Safe.emit (s1.drop _ List.filter_sublist) _ (fun _ => rfl), ⟨?_, o1.sessions, o1.bound⟩, ?_⟩
        · intro b hb
          rw [ents_mem] at hb
          refine o1.ents b (ents_mem.mpr ⟨?_, hb.2⟩)
          have : b ∈ st1.awaiting.filter _ := hb.1
          exact (List.mem_filter.mp this).1
        · intro ht
          obtain ⟨t2, t3⟩ := t1 ht
          refine ⟨?_, t3⟩
          rw [outcomes_emit]
          have : outcomes a.sid { st1 with awaiting := st1.awaiting.filter (fun b => b.parent ≠ a.parent) } = outcomes a.sid st1 := rfl
          rw [this, t2]; rfl
      · exact ⟨s1, o1, t1⟩
    exact deliver_safe cfg a _ hN.1 hN.2.1 hN.2.2

theorem setFlows_filter_ne (s i : Ent) (fs : List Ent) (hne : i ≠ s) : ∀ l : List (Awaiting κ),
    (setFlows s fs l).filter (fun a => a.sid = i) = l.filter (fun a => a.sid = i) := by
  intro l
  induction l with
  | nil => rfl
  | cons a l ih =>
    unfold setFlows
    split
    · rename_i h
      have : a.sid ≠ i := fun e => hne (e.symm.trans h)
      simp [this]
    · simp [List.filter_cons, ih]

theorem setFlows_filter_eq (s : Ent) (fs : List Ent) : ∀ l : List (Awaiting κ),
    (setFlows s fs l).filter (fun a => a.sid = s) =
      match l.filter (fun a => a.sid = s) with
      | [] => []
      | a :: r => { a with flows := some fs } :: r := by
  intro l
  induction l with
  | nil => rfl
  | cons a l ih =>
    unfold setFlows
    split
    · rename_i h; simp [h]
    · rename_i h; simp [h, ih]

theorem setFlows_safe (s : Ent) (fs : List Ent) (st : State α κ) (h : Safe st) :
    Safe { st with awaiting := setFlows s fs st.awaiting } := by
  have e1 : ∀ i, i ≠ s → ents i { st with awaiting := setFlows s fs st.awaiting } = ents i st :=
    fun i hi => setFlows_filter_ne s i fs hi _
  have e2 := setFlows_filter_eq s fs st.awaiting
  have hsid : ∀ l : List (Awaiting κ), (setFlows s fs l).map (·.sid) = l.map (·.sid) := by
    intro l
    induction l with
    | nil => rfl
    | cons a l ih => unfold setFlows; split <;> simp [ih]
  refine ⟨h.nodup, h.bS, fun b hb => ?_, h.bG, h.bO, h.bF, fun x hx hl => ?_, fun i => ?_, h.one,
    h.resp⟩
  · have : b.sid ∈ (setFlows s fs st.awaiting).map (·.sid) := List.mem_map.mpr ⟨b, hb, rfl⟩
    rw [hsid] at this
    obtain ⟨c, hc, e⟩ := List.mem_map.mp this
    rw [← e]; exact h.bA c hc
  · have := h.fresh x hx hl
    refine ⟨?_, this.2⟩
    by_cases e : x.sid = s
    · have h0 := this.1
      rw [e] at h0
      show (setFlows s fs st.awaiting).filter _ = []
      rw [e, e2]
      unfold ents at h0
      rw [h0]
    · rw [e1 _ e]; exact this.1
  · by_cases e : i = s
    · subst e
      have h0 := h.ent i
      have he : ents i { st with awaiting := setFlows i fs st.awaiting } =
          match ents i st with
          | [] => []
          | a :: r => { a with flows := some fs } :: r := e2
      rw [he]
      rcases h0 with h0 | ⟨a, rest, h0, h1, h2, h3⟩
      · rw [h0]; exact Or.inl rfl
      · rw [h0]; exact Or.inr ⟨_, rest, rfl, h1, h2, h3⟩
    · rw [e1 i e]; exact h.ent i

theorem checkAwaiting_safe (cfg : Cfg) (s : Ent) (st : State α κ) (h : Safe st) :
    Safe (checkAwaiting cfg s st) := by
  unfold checkAwaiting
  split
  · exact h
  · split
    · rename_i a ha
      split
      · rename_i hf
        refine finalize_safe cfg _ st h ?_
        intro b hb
        rw [ha] at hb
        cases hb
        rw [hf]; simp
      · exact h
    · exact h

theorem beginFlows_safe (cfg : Cfg) (s : Ent) (st : State α κ) (h : Safe st) :
    Safe (beginFlows cfg s st) := by
  have h1 : Safe { st with sessions := st.sessions.filter (fun p => p.sid ≠ s) } := by
    refine h.sessions _ (h.nodup.sublist (List.filter_sublist.map _)) ?_
    intro x hx
    exact ⟨x, (List.mem_filter.mp hx).1, rfl, id⟩
  unfold beginFlows
  dsimp only
  split
  · exact Safe.emit h1 _ (fun _ => rfl)
  · refine checkAwaiting_safe _ _ _ ?_
    exact (setFlows_safe s _ _ h1).congr rfl rfl rfl rfl rfl (Nat.le_add_right _ _)

theorem trigger_safe (cfg : Cfg) (st : State α κ) (h : Safe st) : Safe (trigger cfg st) := by
  unfold trigger
  split
  · exact h
  · exact beginFlows_safe _ _ _ (h.congr rfl rfl rfl rfl rfl (Nat.le_refl _))

theorem during_early (f : Finish κ) (k : Option κ) :
    (f.during k = .earlyCleanup ↔ f = .earlyCleanup) ∧ (f.during k = .terminated ↔ f = .terminated) := by
  cases f <;> cases k <;> simp [Finish.during]

theorem deduct_safe (cfg : Cfg) (w : Ent) (k : Option κ) (st : State α κ) (h : Safe st) :
    Safe (deduct cfg w k st) := by
  unfold deduct
  split
  · exact h
  · rename_i i hi
    split
    · exact h
    · rename_i a ha
      dsimp only
      obtain ⟨l1, l2, hl, hlen, _, hset⟩ := getElem?_split ha
      have hflow : a.flows ≠ none := by
        rw [List.findIdx?_eq_some_iff_getElem] at hi
        obtain ⟨hlt, hp, _⟩ := hi
        rw [List.getElem?_eq_getElem hlt] at ha
        cases ha
        intro hn
        rw [hn] at hp
        simp at hp
      generalize hr : (a.flows.getD []).filter (· ≠ w) = rest
      have hs : Safe { st with awaiting := (st.awaiting.set i
          { a with status := a.status.during k, flows := some rest }) } := by
        rw [hset]
        obtain ⟨g1, g2, g3, g4⟩ := h.begunEntry hl hflow
        refine ⟨h.nodup, h.bS, ?_, h.bG, h.bO, h.bF, ?_, ?_, h.one, h.resp⟩
        · intro b hb
          simp only [List.mem_append, List.mem_cons] at hb
          rcases hb with hb | rfl | hb
          · exact h.bA b (by rw [hl]; simp [hb])
          · exact h.bA a (by rw [hl]; simp)
          · exact h.bA b (by rw [hl]; simp [hb])
        · intro x hx hlive
          have := h.fresh x hx hlive
          refine ⟨?_, this.2⟩
          have hne : a.sid ≠ x.sid := fun e => g4 x hx e.symm hlive
          have h0 := this.1
          simp only [ents, hl] at h0
          simp only [ents, List.filter_append, List.filter_cons, hne, decide_false] at h0 ⊢
          exact h0
        · intro j
          by_cases e : a.sid = j
          · subst e
            by_cases hst : a.status = .earlyCleanup
            · apply EntOk.early
              intro b hb
              rw [ents_mem] at hb
              simp only [List.mem_append, List.mem_cons] at hb
              rcases hb.1 with hb1 | rfl | hb1
              · exact g1 b (by simp [hb1]) hb.2
              · exact (during_early _ _).1.mpr hst
              · exact g1 b (by simp [hb1]) hb.2
            · have h0 := h.ent a.sid
              simp only [ents, hl] at h0 ⊢
              have hl1 : l1.filter (fun b => b.sid = a.sid) = [] := by
                rcases h0 with h0 | ⟨b, r, h0, h1, _, _⟩
                · simp [List.filter_append] at h0
                · simp only [List.filter_append, List.filter_cons, decide_true, if_true] at h0
                  cases hh : l1.filter (fun b => b.sid = a.sid) with
                  | nil => rfl
                  | cons c r' =>
                    rw [hh] at h0
                    simp only [List.cons_append, List.cons.injEq] at h0
                    exact absurd (h1 a (by rw [← h0.2]; simp)) hst
              simp only [List.filter_append, List.filter_cons, decide_true, if_true, hl1,
                List.nil_append] at h0 ⊢
              rcases h0 with h0 | ⟨b, r, h0, h1, h2, h3⟩
              · cases h0
              · simp only [List.cons.injEq] at h0
                obtain ⟨rfl, rfl⟩ := h0
                refine Or.inr ⟨_, _, rfl, h1, fun hne => h2 hst, fun ht => ?_⟩
                exact h3 ((during_early _ _).2.mp ht)
          · have h0 := h.ent j
            simp only [ents, hl] at h0
            simp only [ents, List.filter_append, List.filter_cons, e, decide_false] at h0 ⊢
            exact h0
      split
      · refine finalize_safe cfg i _ hs ?_
        intro b hb
        have hlt : i < st.awaiting.length := by
          rw [hl, ← hlen]; simp
        simp only [List.getElem?_set_self hlt, Option.some.injEq] at hb
        subst hb
        simp
      · exact hs

theorem step_safe (cfg : Cfg) (st : State α κ) (e : Ev α κ) (h : Safe st)
    (hl : NoLateCleanup cfg st e) : Safe (step cfg st e) := by
  cases e with
  | spawn => exact h.congr rfl rfl rfl rfl rfl (Nat.le_succ _)
  | begin => exact begin_safe _ _ _ _ _ _ _ h
  | terminate s v now =>
    simp only [step]
    split
    · exact terminate_safe _ _ _ _ _ h ‹_›
    · exact h
  | cancel s k now =>
    cases s with
    | none => exact cancelAll_safe _ _ _ _ _ h
    | some s => exact cancelOne_safe _ _ _ _ _ h
  | validate => exact validate_safe _ _ _ _ _ h
  | cleanup c now => exact dynCleanup_safe _ _ _ _ h hl
  | cleaned c =>
    simp only [step]
    split
    · exact Safe.frame (st := { st with pending := st.pending.erase c })
        (h.congr rfl rfl rfl rfl rfl (Nat.le_refl _)) (register_frame _ _)
    · exact h
  | trigger => exact trigger_safe _ _ h
  | flowDone w k => exact deduct_safe _ _ _ _ (h.congr rfl rfl rfl rfl rfl (Nat.le_refl _))
  | despawn => exact h.congr rfl rfl rfl rfl rfl (Nat.le_refl _)

theorem new_safe (n : Ent) : Safe (State.new n : State α κ) := by
  refine ⟨by simp [State.new], ?_, ?_, fun _ _ => rfl, fun _ _ => rfl, fun _ _ => rfl, ?_,
    fun _ => Or.inl rfl, fun _ => by simp [outcomes, State.new], ?_⟩ <;> simp [State.new]

theorem run_safe (cfg : Cfg) : ∀ (es : List (Ev α κ)) (st : State α κ), Safe st →
    Along cfg (NoLateCleanup cfg) st es → Safe (run cfg st es) := by
  intro es
  induction es with
  | nil => intro st h _; exact h
  | cons e es ih => intro st h hl; exact ih _ (step_safe cfg st e h hl.1) hl.2

end Verif.Scope
