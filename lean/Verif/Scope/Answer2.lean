import Verif.Scope.Answer

/-
The phases of a session that is cleaned up at the request of the parent.
-/
set_option linter.unusedSimpArgs false
set_option linter.unusedVariables false
namespace Verif.Scope

variable {α κ : Type}

theorem filter_skip {β : Type} (q : β → Bool) (l1 l2 : List β) (a : β) (h : q a = false) :
    (l1 ++ a :: l2).filter q = (l1 ++ l2).filter q := by
  simp [List.filter_append, h]

/-- Fewer entries, none of them of the session. -/
theorem drop_keep {c : Cleanup} {ss : List Ent} {st : State α κ} (h : Side c ss st)
    (l : List (Awaiting κ)) (hl : ∀ a ∈ l, a ∈ st.awaiting)
    (he : l.filter (mine c ss) = st.awaiting.filter (mine c ss)) :
    Keep c ss st { st with awaiting := l } :=
  ⟨⟨h.1, h.2, h.3, h.4, h.5, fun a ha => h.ent a (hl a ha), fun a ha => h.flowB a (hl a ha), h.8,
    fun a ha => h.apart a (hl a ha)⟩, { Same.refl c ss st with aw := he }⟩

theorem leave_keep {c : Cleanup} {ss : List Ent} (t : Ent) (b : Bool) (st : State α κ)
    (h : Side c ss st) : Keep c ss st (leave t b st) := by
  have k1 : Keep c ss st { st with staging := fun i => if i = t then none else st.staging i } :=
    ⟨⟨h.1, h.2, h.3, h.4, h.5, h.6, h.7, h.8, h.9⟩, { Same.refl c ss st with }⟩
  have k2 : ∀ st' : State α κ, Side c ss st' →
      Keep c ss st' { st' with alive := fun i => if i = t then none else st'.alive i } := by
    intro st' h'
    refine ⟨⟨h'.1, h'.2, h'.3, h'.4, ?_, h'.6, h'.7, h'.8, h'.9⟩, { Same.refl c ss st' with }⟩
    intro x hx q hq
    dsimp only at hq
    split at hq
    · cases hq
    · exact h'.aliveP x hx q hq
  unfold leave
  dsimp only
  split
  · have k3 := k1.trans (Keep.emit k1.1 (.unblock t) rfl)
    exact k3.trans (k2 _ k3.1)
  · exact k1.trans (k2 _ k1.1)

theorem deliver_keep (cfg : Cfg) {c : Cleanup} {ss : List Ent} (a : Awaiting κ) (st : State α κ)
    (h : Side c ss st) : Keep c ss st (deliver cfg a st) := by
  have k1 : Keep c ss st { st with exits := fun i => if i = a.sid then none else st.exits i } :=
    ⟨⟨h.1, h.2, h.3, h.4, h.5, h.6, h.7, h.8, h.9⟩, { Same.refl c ss st with }⟩
  unfold deliver
  dsimp only
  split
  · exact k1.trans (Keep.emit k1.1 _ rfl)
  · split
    · split
      · exact k1.trans (Keep.emit k1.1 _ rfl)
      · rename_i v _
        have k2 := k1.trans (Keep.emit k1.1 (.respond a.sid a.parent v) rfl)
        exact k2.trans (leave_keep _ _ _ k2.1)
    · exact k1.trans (leave_keep _ _ _ k1.1)

theorem endEntry_keep {c : Cleanup} {ss : List Ent} (i : Nat) (a : Awaiting κ) (st : State α κ)
    (h : Side c ss st) (hi : st.awaiting[i]? = some a) (ha : mine c ss a = false) :
    Keep c ss st (endEntry i a st) := by
  obtain ⟨l1, l2, e1, _, e2, _⟩ := getElem?_split hi
  have k : Keep c ss st { st with awaiting := st.awaiting.eraseIdx i } := by
    refine drop_keep h _ ?_ ?_
    · intro b hb
      rw [e2] at hb
      rw [e1]
      rcases List.mem_append.mp hb with hb | hb <;> simp [hb]
    · rw [e2, e1, filter_skip _ _ _ _ ha]
  unfold endEntry
  split
  · exact Keep.refl h
  · exact k
  · exact k.trans (Keep.emit k.1 _ rfl)

theorem notifyParent_keep {c : Cleanup} {ss : List Ent} (a : Awaiting κ) (st : State α κ)
    (h : Side c ss st) (ha : mine c ss a = false) : Keep c ss st (notifyParent a st) := by
  simp only [mine, Bool.or_eq_false_iff, beq_eq_false_iff_ne] at ha
  obtain ⟨⟨_, h2⟩, h3⟩ := ha
  unfold notifyParent
  split
  · have k : Keep c ss st { st with awaiting := st.awaiting.filter (fun b => b.parent ≠ a.parent) } := by
      refine drop_keep h _ (fun b hb => (List.mem_filter.mp hb).1) ?_
      rw [List.filter_filter]
      apply List.filter_congr
      intro b hb
      cases hm : mine c ss b with
      | false => simp
      | true =>
        have := (h.ent b hb hm).2.1
        simp [this, Ne.symm h2]
    refine k.trans (Keep.emit k.1 _ ?_)
    simp only [Out.isAnswer, decide_eq_false_iff_not]
    rintro rfl; exact h3 rfl
  · exact Keep.refl h

theorem finalize_keep (cfg : Cfg) {c : Cleanup} {ss : List Ent} (i : Nat) (a : Awaiting κ)
    (st : State α κ) (h : Side c ss st) (hi : st.awaiting[i]? = some a) (ha : mine c ss a = false) :
    Keep c ss st (finalize cfg i st) := by
  unfold finalize
  rw [hi]
  have k1 := endEntry_keep i a st h hi ha
  have k2 := k1.trans (notifyParent_keep a _ k1.1 ha)
  exact k2.trans (deliver_keep cfg a _ k2.1)

/-- The first entry with a property. -/
theorem find_split {β : Type} (q : β → Bool) : ∀ (l : List β) (a : β), l.find? q = some a →
    ∃ l1 l2, l = l1 ++ a :: l2 ∧ (∀ b ∈ l1, q b = false) ∧ q a = true := by
  intro l
  induction l with
  | nil => intro a h; cases h
  | cons x l ih =>
    intro a h
    cases hx : q x with
    | true =>
      rw [List.find?_cons_of_pos hx] at h
      cases h
      exact ⟨[], l, rfl, by simp, hx⟩
    | false =>
      rw [List.find?_cons_of_neg (by simp [hx])] at h
      obtain ⟨l1, l2, rfl, h2, h3⟩ := ih a h
      refine ⟨x :: l1, l2, rfl, ?_, h3⟩
      intro b hb
      rcases List.mem_cons.mp hb with rfl | hb
      · exact hx
      · exact h2 b hb

theorem findIdx_get {β : Type} (q : β → Bool) : ∀ (l : List β) (i : Nat), l.findIdx? q = some i →
    ∃ l1 a l2, l = l1 ++ a :: l2 ∧ l1.length = i ∧ (∀ b ∈ l1, q b = false) ∧ q a = true := by
  intro l
  induction l with
  | nil => intro i h; cases h
  | cons x l ih =>
    intro i h
    rw [List.findIdx?_cons] at h
    cases hx : q x with
    | true =>
      rw [hx] at h
      simp only [if_true, Option.some.injEq] at h
      exact ⟨[], x, l, rfl, h, by simp, hx⟩
    | false =>
      rw [hx] at h
      cases hf : l.findIdx? q with
      | none => rw [hf] at h; cases h
      | some j =>
        rw [hf] at h
        simp at h
        obtain ⟨l1, a, l2, rfl, h1, h2, h3⟩ := ih j hf
        refine ⟨x :: l1, a, l2, rfl, by simp [h1, h], ?_, h3⟩
        intro b hb
        rcases List.mem_cons.mp hb with rfl | hb
        · exact hx
        · exact h2 b hb

theorem get_mid {β : Type} (l1 l2 : List β) (a : β) : (l1 ++ a :: l2)[l1.length]? = some a := by
  simp

/-- The cleanup workflows begin for an entry: the state before it is checked. -/
def started1 (s : Ent) (l1 l2 : List (Awaiting κ)) (a : Awaiting κ) (flows : List Flow)
    (st : State α κ) : State α κ :=
  { st with
    next := st.next + flows.length
    awaiting := l1 ++ { a with flows := some ((List.range flows.length).map (fun k => st.next + k)) } :: l2
    running := st.running ++ ((List.range flows.length).map (fun k => st.next + k)).map (fun w => (w, s))
    started := st.started ++ flows.map (fun f => (s, f)) }

theorem beginFlows_form (cfg : Cfg) (t : Ent) (st : State α κ) :
    (∀ a ∈ st.awaiting, a.sid ≠ t) ∧ beginFlows cfg t st =
      State.emit { st with sessions := st.sessions.filter (fun p => p.sid ≠ t) } (.broken t) ∨
    ∃ l1 a l2, st.awaiting = l1 ++ a :: l2 ∧ a.sid = t ∧ (∀ b ∈ l1, b.sid ≠ t) ∧
      let st1 := started1 t l1 l2 a (flowsToRun cfg a.status.isTerminated)
        { st with sessions := st.sessions.filter (fun p => p.sid ≠ t) }
      beginFlows cfg t st =
        (if flowsToRun cfg a.status.isTerminated = [] then finalize cfg l1.length st1 else st1) := by
  unfold beginFlows
  dsimp only
  cases hf : st.awaiting.find? (fun a => a.sid = t) with
  | none =>
    refine Or.inl ⟨?_, rfl⟩
    intro a ha
    have := List.find?_eq_none.mp hf a ha
    simpa using this
  | some a =>
    obtain ⟨l1, l2, h1, h2, h3⟩ := find_split _ _ _ hf
    have h2' : ∀ b ∈ l1, b.sid ≠ t := fun b hb => by simpa using h2 b hb
    have h3' : a.sid = t := by simpa using h3
    refine Or.inr ⟨l1, a, l2, h1, h3', h2', ?_⟩
    dsimp only
    rw [h1, setFlows_split t _ l1 l2 a h2' h3']
    unfold checkAwaiting
    dsimp only
    rw [findIdx_split (fun a : Awaiting κ => decide (a.sid = t)) l1 l2 _ h2 (by simpa using h3')]
    dsimp only
    rw [get_mid]
    dsimp only
    generalize flowsToRun cfg a.status.isTerminated = fl
    have : (some ((List.range fl.length).map (fun k => st.next + k)) = some []) ↔ fl = [] := by
      cases fl <;> simp [List.range_succ]
    unfold started1
    by_cases he : fl = []
    · rw [if_pos (this.mpr he), if_pos he]
    · rw [if_neg (fun q => he (this.mp q)), if_neg he]

/-- The sessions of another session are removed. -/
theorem remove_keep {c : Cleanup} {ss : List Ent} {st : State α κ} (h : Side c ss st) (t : Ent) :
    Keep c ss st { st with sessions := st.sessions.filter (fun p => p.sid ≠ t) } := by
  refine sessions_keep h _ ?_
  intro y hy
  exact ⟨y, (List.mem_filter.mp hy).1, rfl, rfl, id⟩

theorem started1_side {c : Cleanup} {ss : List Ent} {st : State α κ} (h : Side c ss st) (t : Ent)
    (l1 l2 : List (Awaiting κ)) (a : Awaiting κ) (fl : List Flow)
    (hl : st.awaiting = l1 ++ a :: l2) (ht : a.sid = t) :
    Side c ss (started1 t l1 l2 a fl st) := by
  have hmem : ∀ b ∈ (started1 t l1 l2 a fl st).awaiting, b ∈ st.awaiting ∨
      b = { a with flows := some ((List.range fl.length).map (fun k => st.next + k)) } := by
    intro b hb
    simp only [started1, List.mem_append, List.mem_cons] at hb
    rw [hl]
    rcases hb with hb | rfl | hb
    · left; simp [hb]
    · right; rfl
    · left; simp [hb]
  have ham : a ∈ st.awaiting := by rw [hl]; simp
  have hle : st.next ≤ st.next + fl.length := Nat.le_add_right _ _
  refine ⟨Nat.lt_of_lt_of_le h.1 hle, fun s hs => Nat.lt_of_lt_of_le (h.2 s hs) hle, fun x hx => Nat.lt_of_lt_of_le (h.3 x hx) hle,
    h.4, h.5, ?_, ?_, ?_, ?_⟩
  · intro b hb hm
    rcases hmem b hb with hb | rfl
    · exact h.ent b hb hm
    · exact h.ent a ham hm
  · intro b hb l hfl w hw
    rcases hmem b hb with hb | rfl
    · exact Nat.lt_of_lt_of_le (h.flowB b hb l hfl w hw) hle
    · cases hfl
      obtain ⟨k, hk, rfl⟩ := List.mem_map.mp hw
      exact Nat.add_lt_add_left (List.mem_range.mp hk) _
  · intro r hr
    simp only [started1, List.mem_append] at hr
    rcases hr with hr | hr
    · exact Nat.lt_of_lt_of_le (h.runB r hr) hle
    · obtain ⟨w, hw, rfl⟩ := List.mem_map.mp hr
      obtain ⟨k, hk, rfl⟩ := List.mem_map.mp hw
      exact Nat.add_lt_add_left (List.mem_range.mp hk) _
  · intro b hb l hfl w hw s hs hr
    simp only [started1, List.mem_append] at hr
    rcases hmem b hb with hb' | rfl
    · rcases hr with hr | hr
      · exact h.apart b hb' l hfl w hw s hs hr
      · obtain ⟨w', hw', e⟩ := List.mem_map.mp hr
        obtain ⟨k, hk, rfl⟩ := List.mem_map.mp hw'
        have e1 : st.next + k = w := congrArg Prod.fst e
        have hlt := h.flowB b hb' l hfl _ hw
        rw [← e1] at hlt
        exact absurd hlt (Nat.not_lt.mpr (Nat.le_add_right _ _))
    · cases hfl
      obtain ⟨k, hk, rfl⟩ := List.mem_map.mp hw
      rcases hr with hr | hr
      · exact absurd (h.runB _ hr) (Nat.not_lt.mpr (Nat.le_add_right _ _))
      · obtain ⟨w', hw', e⟩ := List.mem_map.mp hr
        exact (congrArg Prod.snd e).symm.trans ht.symm

theorem beginFlows_keep (cfg : Cfg) {c : Cleanup} {ss : List Ent} (t : Ent) (st : State α κ)
    (h : Side c ss st) (hts : t ∉ ss) : Keep c ss st (beginFlows cfg t st) := by
  have k0 := remove_keep h t
  rcases beginFlows_form cfg t st with ⟨_, e⟩ | ⟨l1, a, l2, hl, ha, _, e⟩
  · rw [e]; exact k0.trans (Keep.emit k0.1 _ rfl)
  · dsimp only at e
    rw [e]
    have hma : mine c ss a = false := by
      cases hm : mine c ss a with
      | false => rfl
      | true =>
        have := (h.ent a (by rw [hl]; simp) hm).1
        rw [ha] at this
        exact absurd this hts
    generalize flowsToRun cfg a.status.isTerminated = fl
    have hma' : mine c ss ({ a with flows := some ((List.range fl.length).map (fun k => st.next + k)) } : Awaiting κ) = false := hma
    have k1 : Keep c ss st (started1 t l1 l2 a fl
        { st with sessions := st.sessions.filter (fun p => p.sid ≠ t) }) := by
      refine k0.trans ⟨started1_side k0.1 t l1 l2 a fl hl ha, { Same.refl c ss _ with aw := ?_, run := ?_, started := ?_ }⟩
      · show List.filter _ (l1 ++ _ :: l2) = List.filter _ st.awaiting
        rw [hl, filter_skip _ _ _ _ hma', filter_skip _ _ _ _ hma]
      · intro s hs w
        show (w, s) ∈ st.running ++ _ ↔ _
        constructor
        · intro hw
          rcases List.mem_append.mp hw with hw | hw
          · exact hw
          · obtain ⟨w', _, e⟩ := List.mem_map.mp hw
            have e2 : t = s := congrArg Prod.snd e
            rw [e2] at hts
            exact absurd hs hts
        · intro hw; exact List.mem_append_left _ hw
      · intro f hf; exact List.mem_append_left _ hf
    split
    · refine k1.trans (finalize_keep cfg l1.length _ _ k1.1 (get_mid _ _ _) hma')
    · exact k1

/-! ### The phases -/

/-- The clean request to a node. -/
def ask (cfg : Cfg) (c : Cleanup) (s n : Ent) : Cleanup :=
  { cleaner := cfg.self, node := n, session := s, id := c.id }

/-- The request is being carried out: each session has its entry, and it waits for operations,
for the flush loop or for cleanup workflows, or has nothing left to wait for. -/
structure Open (cfg : Cfg) (c : Cleanup) (ss : List Ent) (st : State α κ) : Prop where
  sids : (st.awaiting.filter (mine c ss)).map (·.sid) = ss
  notes : answers c st = []
  asks : (st.contents c.id = none ∧ st.pending.filter (mineC c ss) = []) ∨
    ∃ s ns, ss = [s] ∧ ns ≠ [] ∧ ns.Nodup ∧ st.contents c.id = some ns ∧
      st.pending.filter (mineC c ss) = ns.map (ask cfg c s) ∧ st.finished.filter (mineC c ss) = []
  finS : ∀ d ∈ st.finished.filter (mineC c ss), d.session ∈ ss ∧ d.id = c.id
  finNodup : ((st.finished.filter (mineC c ss)).map (·.session)).Nodup
  waiting : ∀ a ∈ st.awaiting.filter (mine c ss), a.flows = none ↔
    (∃ d ∈ st.finished.filter (mineC c ss), d.session = a.sid) ∨
    (∃ d ∈ st.pending.filter (mineC c ss), d.session = a.sid)
  idle : ∀ a ∈ st.awaiting.filter (mine c ss), a.flows = none → ∀ w, (w, a.sid) ∉ st.running
  run : ∀ a ∈ st.awaiting.filter (mine c ss), ∀ l, a.flows = some l →
    (∀ w, (w, a.sid) ∈ st.running ↔ w ∈ l) ∧ (∀ x ∈ st.sessions, x.sid ≠ a.sid) ∧
    AllStarted cfg a.sid false st

/-- The parent has its answer. -/
structure Told (cfg : Cfg) (c : Cleanup) (ss : List Ent) (st : State α κ) : Prop where
  aw : st.awaiting.filter (mine c ss) = []
  notes : answers c st = [.notify c]
  pend : st.pending.filter (mineC c ss) = []
  fin : st.finished.filter (mineC c ss) = []
  run : ∀ s ∈ ss, ∀ w, (w, s) ∉ st.running
  gone : ∀ x ∈ st.sessions, x.sid ∉ ss
  all : ∀ s ∈ ss, AllStarted cfg s false st

def Phase (cfg : Cfg) (c : Cleanup) (ss : List Ent) (st : State α κ) : Prop :=
  (Open cfg c ss st ∧ ∃ a ∈ st.awaiting.filter (mine c ss), a.flows ≠ some []) ∨ Told cfg c ss st

theorem mine_sid {c : Cleanup} {ss : List Ent} {st : State α κ} (h : Side c ss st)
    {a : Awaiting κ} (ha : a ∈ st.awaiting.filter (mine c ss)) : a.sid ∈ ss :=
  (h.ent a (List.mem_filter.mp ha).1 (List.mem_filter.mp ha).2).1

theorem Open.keep {cfg : Cfg} {c : Cleanup} {ss : List Ent} {st st' : State α κ}
    (hs : Side c ss st) (h : Open cfg c ss st) (g : Same c ss st st') : Open cfg c ss st' := by
  obtain ⟨h1, h2, h3, h4, h5, h6, h7, h8⟩ := h
  refine ⟨?_, ?_, ?_, ?_, ?_, ?_, ?_, ?_⟩
  · rw [g.aw]; exact h1
  · rw [g.notes]; exact h2
  · rw [g.cont, g.pend, g.fin]; exact h3
  · rw [g.fin]; exact h4
  · rw [g.fin]; exact h5
  · rw [g.aw, g.fin, g.pend]; exact h6
  · rw [g.aw]
    intro a ha hf w hw
    exact h7 a ha hf w ((g.run _ (mine_sid hs ha) w).mp hw)
  · rw [g.aw]
    intro a ha l hl
    have hm := mine_sid hs ha
    obtain ⟨i1, i2, i3⟩ := h8 a ha l hl
    refine ⟨fun w => (g.run _ hm w).trans (i1 w), ?_, fun f hf => g.started _ (i3 f hf)⟩
    intro x hx e
    obtain ⟨y, hy, e'⟩ := g.here x hx (by rw [e]; exact hm)
    exact i2 y hy (e'.trans e)

theorem Told.keep {cfg : Cfg} {c : Cleanup} {ss : List Ent} {st st' : State α κ}
    (h : Told cfg c ss st) (g : Same c ss st st') : Told cfg c ss st' := by
  refine ⟨g.aw.trans h.aw, g.notes.trans h.notes, g.pend.trans h.pend, g.fin.trans h.fin,
    fun s hs w hw => h.run s hs w ((g.run s hs w).mp hw), ?_, fun s hs f hf => g.started _ (h.all s hs f hf)⟩
  intro x hx e
  obtain ⟨y, hy, e'⟩ := g.here x hx e
  exact h.gone y hy (by rw [e']; exact e)

/-- The invariant. -/
structure Asked (cfg : Cfg) (c : Cleanup) (ss : List Ent) (st : State α κ) : Prop where
  side : Side c ss st
  phase : Phase cfg c ss st
  asked : ∀ s ∈ ss, AllAsked cfg s st

theorem Asked.keep {cfg : Cfg} {c : Cleanup} {ss : List Ent} {st st' : State α κ}
    (h : Asked cfg c ss st) (g : Keep c ss st st') : Asked cfg c ss st' := by
  refine ⟨g.1, ?_, ?_⟩
  · rcases h.phase with ⟨h1, h2⟩ | h1
    · exact Or.inl ⟨h1.keep h.side g.2, by rw [g.2.aw]; exact h2⟩
    · exact Or.inr (h1.keep g.2)
  · intro s hs n hn
    obtain ⟨d, hd, e⟩ := h.asked s hs n hn
    exact ⟨d, g.2.asked d hd, e⟩

/-- The end of the entry of a session. -/
theorem finalize_mine (cfg : Cfg) {c : Cleanup} {ss : List Ent} (i : Nat) (st : State α κ)
    (a : Awaiting κ) (h : Side c ss st) (hi : st.awaiting[i]? = some a) (hm : mine c ss a = true)
    (hf : a.flows = some []) (ho : Open cfg c ss st) (asked : ∀ s ∈ ss, AllAsked cfg s st) :
    Asked cfg c ss (finalize cfg i st) := by
  have ham : a ∈ st.awaiting := by
    obtain ⟨l1, l2, e, _⟩ := getElem?_split hi
    rw [e]; simp
  obtain ⟨e1, e2, e3, e4⟩ := h.ent a ham hm
  unfold finalize
  rw [hi]
  have hend : endEntry i a st = st := by unfold endEntry; rw [e4]
  dsimp only
  rw [hend]
  have key : Asked cfg c ss (notifyParent a st) := by
    have hsame : st.awaiting.filter (fun b => b.cleanup.id = a.cleanup.id) = st.awaiting.filter (mine c ss) := by
      apply List.filter_congr
      intro b hb
      rw [e3]
      cases hb' : mine c ss b with
      | true => rw [(h.ent b hb hb').2.2.1]; simp
      | false =>
        simp only [mine, Bool.or_eq_false_iff, beq_eq_false_iff_ne] at hb'
        simpa using hb'.2
    unfold notifyParent
    by_cases hall : ∀ b ∈ st.awaiting.filter (mine c ss), b.flows = some []
    · -- all sessions are done
      have hentry : ∀ s ∈ ss, ∃ b ∈ st.awaiting.filter (mine c ss), b.sid = s := by
        intro s hs
        rw [← ho.sids] at hs
        obtain ⟨b, hb, e⟩ := List.mem_map.mp hs
        exact ⟨b, hb, e⟩
      have hgone : ∀ x ∈ st.sessions, x.sid ∉ ss := by
        intro x hx e
        obtain ⟨b, hb, eb⟩ := hentry _ e
        exact (ho.run b hb [] (hall b hb)).2.1 x hx eb.symm
      have hpc : parentClean a st = true := by
        unfold parentClean
        dsimp only
        rw [hsame]
        have hno : st.sessions.any (fun p => p.parent = a.parent) = false := by
          rw [List.any_eq_false]
          intro x hx e
          simp only [decide_eq_true_eq] at e
          exact hgone x hx ((h.sess x hx).2.1 (e.trans e2))
        rw [hno, Bool.and_eq_true, Bool.and_eq_true]
        refine ⟨⟨?_, ?_⟩, rfl⟩
        · rw [List.any_eq_true]
          exact ⟨a, List.mem_filter.mpr ⟨ham, hm⟩, by rw [e4]; rfl⟩
        · rw [List.all_eq_true]
          intro b hb
          simpa using hall b hb
      rw [if_pos hpc]
      refine ⟨⟨h.1, h.2, h.3, h.4, h.5, fun b hb => h.ent b (List.mem_filter.mp hb).1,
        fun b hb => h.flowB b (List.mem_filter.mp hb).1, h.8, fun b hb => h.apart b (List.mem_filter.mp hb).1⟩,
        Or.inr ⟨?_, ?_, ?_, ?_, ?_, hgone, ?_⟩, asked⟩
      · show List.filter _ (List.filter _ _) = _
        rw [List.filter_filter, List.filter_eq_nil_iff]
        intro b hb e
        simp only [Bool.and_eq_true, decide_eq_true_eq] at e
        exact e.2 ((h.ent b hb e.1).2.1.trans e2.symm)
      · have hn := ho.notes
        simp only [answers, State.emit, List.filter_append] at hn ⊢
        rw [hn, e3]
        simp [Out.isAnswer]
      · show st.pending.filter _ = []
        rcases ho.asks with ⟨_, hp⟩ | ⟨s, ns, rfl, hne, _, _, hp, _⟩
        · exact hp
        · exfalso
          obtain ⟨b, hb, eb⟩ := hentry s (by simp)
          have : b.flows = none := by
            refine (ho.waiting b hb).mpr (Or.inr ?_)
            cases ns with
            | nil => exact absurd rfl hne
            | cons n ns =>
              refine ⟨ask cfg c s n, by rw [hp]; simp, eb.symm⟩
          rw [hall b hb] at this; cases this
      · show st.finished.filter _ = []
        cases hl : st.finished.filter (mineC c ss) with
        | nil => rfl
        | cons d l =>
          have hd : d ∈ st.finished.filter (mineC c ss) := by rw [hl]; simp
          obtain ⟨b, hb, eb⟩ := hentry _ (ho.finS d hd).1
          have := (ho.waiting b hb).mpr (Or.inl ⟨d, hd, eb.symm⟩)
          rw [hall b hb] at this; cases this
      · intro s hs w hw
        obtain ⟨b, hb, rfl⟩ := hentry s hs
        have := ((ho.run b hb [] (hall b hb)).1 w).mp hw
        cases this
      · intro s hs
        obtain ⟨b, hb, rfl⟩ := hentry s hs
        exact (ho.run b hb [] (hall b hb)).2.2
    · have hpc : parentClean a st = false := by
        unfold parentClean
        dsimp only
        rw [hsame]
        have : (st.awaiting.filter (mine c ss)).all (fun b => decide (b.flows = some [])) = false := by
          rw [Bool.eq_false_iff]
          intro e
          rw [List.all_eq_true] at e
          exact hall (fun b hb => by simpa using e b hb)
        rw [this]; simp
      rw [if_neg (by rw [hpc]; simp)]
      refine ⟨h, Or.inl ⟨ho, ?_⟩, asked⟩
      exact Classical.byContradiction fun hc => hall fun b hb =>
        Classical.byContradiction fun hb' => hc ⟨b, hb, hb'⟩
  exact key.keep (deliver_keep cfg _ _ key.side)

theorem erase_filter_neg (q : Cleanup → Bool) (l : List Cleanup) (d : Cleanup) (h : q d = false) :
    (l.erase d).filter q = l.filter q := by
  rw [← List.erase_filter, List.erase_of_not_mem]
  intro hm
  rw [(List.mem_filter.mp hm).2] at h; cases h

theorem map_ask_erase (cfg : Cfg) (c : Cleanup) (s n : Ent) : ∀ l : List Ent,
    (l.map (ask cfg c s)).erase (ask cfg c s n) = (l.erase n).map (ask cfg c s) := by
  intro l
  induction l with
  | nil => rfl
  | cons m l ih =>
    rw [List.map_cons, List.erase_cons, List.erase_cons]
    by_cases e : m = n
    · subst e; simp
    · have e' : ask cfg c s m ≠ ask cfg c s n := fun q => e (congrArg Cleanup.node q)
      rw [if_neg (by simpa using e'), if_neg (by simpa using e), ih]; rfl

/-- An operation answers. -/
theorem cleaned_asked (cfg : Cfg) {c : Cleanup} {ss : List Ent} (st : State α κ)
    (h : Asked cfg c ss st) (d : Cleanup) (hd : d ∈ st.pending) :
    Asked cfg c ss (State.register { st with pending := st.pending.erase d } d) := by
  have hs := h.side
  cases hm : mineC c ss d with
  | false =>
    have k : Keep c ss st { st with pending := st.pending.erase d } :=
      ⟨⟨hs.1, hs.2, hs.3, hs.4, hs.5, hs.6, hs.7, hs.8, hs.9⟩,
        { Same.refl c ss st with pend := erase_filter_neg _ _ _ hm }⟩
    exact h.keep (k.trans (register_keep k.1 d hm))
  | true =>
    have hmem : d ∈ st.pending.filter (mineC c ss) := List.mem_filter.mpr ⟨hd, hm⟩
    rcases h.phase with ⟨ho, hex⟩ | ho
    case inr => rw [ho.pend] at hmem; cases hmem
    rcases ho.asks with ⟨_, hp⟩ | ⟨s, ns, rfl, hne, hnd, hcont, hp, hfin⟩
    · rw [hp] at hmem; cases hmem
    rw [hp] at hmem
    obtain ⟨n, hn, rfl⟩ := List.mem_map.mp hmem
    have hrest : ns.filter (· ≠ n) = ns.erase n := by
      rw [List.Nodup.erase_eq_filter hnd]
      apply List.filter_congr
      intro x _
      by_cases e : x = n <;> simp [e, bne]
    have hpend : (st.pending.erase (ask cfg c s n)).filter (mineC c [s]) = (ns.erase n).map (ask cfg c s) := by
      rw [← List.erase_filter, hp, map_ask_erase]
    have hsid : ∀ a ∈ st.awaiting.filter (mine c [s]), a.sid = s :=
      fun a ha => by simpa using mine_sid hs ha
    have hnone : ∀ a ∈ st.awaiting.filter (mine c [s]), a.flows = none := by
      intro a ha
      refine (ho.waiting a ha).mpr (Or.inr ⟨ask cfg c s n, ?_, (hsid a ha).symm⟩)
      rw [hp]; exact hmem
    unfold State.register
    show Asked cfg c [s] (match st.contents c.id with | none => _ | some nodes => _)
    rw [hcont]
    dsimp only
    have hnn : (ask cfg c s n).node = n := rfl
    have hii : (ask cfg c s n).id = c.id := rfl
    rw [hnn, hii, hrest]
    have hside : ∀ (ct : Ent → Option (List Ent)) (fi : List Cleanup), Side c [s] { st with
        pending := st.pending.erase (ask cfg c s n)
        contents := ct
        finished := fi } := fun ct fi =>
      ⟨hs.1, hs.2, hs.3, hs.4, hs.5, hs.6, hs.7, hs.8, hs.9⟩
    split
    · rename_i hemp
      have hemp' : ns.erase n = [] := by simpa using hemp
      rw [hemp'] at hpend
      have hfin' : (ask cfg c s n :: st.finished).filter (mineC c [s]) = [ask cfg c s n] := by
        rw [List.filter_cons_of_pos hm, hfin]
      refine ⟨hside _ _, Or.inl ⟨⟨ho.sids, ho.notes, Or.inl ⟨by simp, hpend⟩, ?_, ?_, ?_, ho.idle, ho.run⟩, hex⟩, h.asked⟩
      · dsimp only
        rw [hfin']
        intro d hd
        rw [List.mem_singleton.mp hd]
        exact ⟨by simp [ask], rfl⟩
      · dsimp only
        rw [hfin']; simp
      · intro a ha
        refine ⟨fun _ => Or.inl ⟨ask cfg c s n, ?_, (hsid a ha).symm⟩, fun _ => hnone a ha⟩
        dsimp only
        rw [hfin']; simp
    · rename_i hemp
      have hemp' : ns.erase n ≠ [] := by simpa using hemp
      refine ⟨hside _ _, Or.inl ⟨⟨ho.sids, ho.notes, Or.inr ⟨s, ns.erase n, rfl, hemp', hnd.erase _, by simp, hpend, hfin⟩,
        ho.finS, ho.finNodup, ?_, ho.idle, ho.run⟩, hex⟩, h.asked⟩
      intro a ha
      refine ⟨fun _ => Or.inr ?_, fun _ => hnone a ha⟩
      obtain ⟨m, l, hml⟩ := List.exists_cons_of_ne_nil hemp'
      refine ⟨ask cfg c s m, ?_, (hsid a ha).symm⟩
      show ask cfg c s m ∈ List.filter _ (st.pending.erase _)
      rw [hpend, hml]; simp

theorem filter_mid {c : Cleanup} {ss : List Ent} (l1 l2 : List (Awaiting κ)) (a : Awaiting κ)
    (ha : mine c ss a = true) :
    (l1 ++ a :: l2).filter (mine c ss) = l1.filter (mine c ss) ++ a :: l2.filter (mine c ss) := by
  rw [List.filter_append, List.filter_cons_of_pos ha]

/-- The flush loop takes a finished cleanup. -/
theorem trigger_asked (cfg : Cfg) {c : Cleanup} {ss : List Ent} (hnd : ss.Nodup) (st : State α κ)
    (h : Asked cfg c ss st) : Asked cfg c ss (trigger cfg st) := by
  have hs := h.side
  unfold trigger
  split
  · exact h
  · rename_i d rest hfin
    cases hm : mineC c ss d with
    | false =>
      have hm' := hm
      simp only [mineC, Bool.or_eq_false_iff, beq_eq_false_iff_ne] at hm'
      have k : Keep c ss st { st with
          finished := rest
          contents := fun i => if i = d.id then none else st.contents i } := by
        refine ⟨⟨hs.1, hs.2, hs.3, hs.4, hs.5, hs.6, hs.7, hs.8, hs.9⟩,
          { Same.refl c ss st with fin := ?_, cont := ?_ }⟩
        · show (if c.id = d.id then _ else _) = _
          rw [if_neg (Ne.symm hm'.2)]
        · show List.filter _ rest = _
          rw [hfin, List.filter_cons_of_neg (by simp [hm])]
      exact h.keep (k.trans (beginFlows_keep cfg d.session _ k.1 (by simpa using hm'.1)))
    | true =>
      have hfil : st.finished.filter (mineC c ss) = d :: rest.filter (mineC c ss) := by
        rw [hfin, List.filter_cons_of_pos hm]
      have hmem : d ∈ st.finished.filter (mineC c ss) := by rw [hfil]; simp
      rcases h.phase with ⟨ho, hex⟩ | ho
      case inr => rw [ho.fin] at hmem; cases hmem
      rcases ho.asks with ⟨hcont, hpend⟩ | ⟨s, ns, rfl, _, _, _, _, hf⟩
      case inr => rw [hf] at hmem; cases hmem
      obtain ⟨hsid, hdid⟩ := ho.finS d hmem
      generalize hT : d.session = t at hsid
      rw [hdid]
      generalize hst1 : ({ st with
        finished := rest
        contents := fun i => if i = c.id then none else st.contents i } : State α κ) = st1
      have s1 : Side c ss st1 := by
        rw [← hst1]; exact ⟨hs.1, hs.2, hs.3, hs.4, hs.5, hs.6, hs.7, hs.8, hs.9⟩
      have eaw : st1.awaiting = st.awaiting := by rw [← hst1]
      have erun : st1.running = st.running := by rw [← hst1]
      have esess : st1.sessions = st.sessions := by rw [← hst1]
      have estart : st1.started = st.started := by rw [← hst1]
      have cont1 : st1.contents c.id = none := by rw [← hst1]; simp
      have pend1 : st1.pending.filter (mineC c ss) = [] := by rw [← hst1]; exact hpend
      have fin1 : st1.finished = rest := by rw [← hst1]
      have notes1 : answers c st1 = [] := by rw [← hst1]; exact ho.notes
      have asked1 : ∀ s ∈ ss, AllAsked cfg s st1 := by rw [← hst1]; exact h.asked
      clear hst1
      have hnof : ∀ d' ∈ rest.filter (mineC c ss), d'.session ≠ t := by
        have := ho.finNodup
        rw [hfil, List.map_cons, List.nodup_cons] at this
        intro d' hd' e
        exact this.1 (List.mem_map.mpr ⟨d', hd', e.trans hT.symm⟩)
      have k0 := remove_keep s1 t
      rcases beginFlows_form cfg t st1 with ⟨hno, _⟩ | ⟨l1, a, l2, hl, ha, _, e⟩
      · exfalso
        rw [← ho.sids] at hsid
        obtain ⟨b, hb, eb⟩ := List.mem_map.mp hsid
        exact hno b (by rw [eaw]; exact (List.mem_filter.mp hb).1) eb
      · dsimp only at e
        rw [e]
        have hma : mine c ss a = true := by
          simp only [mine, ha, Bool.or_eq_true]
          exact Or.inl (Or.inl (by simpa using hsid))
        have hE : st.awaiting.filter (mine c ss) = l1.filter (mine c ss) ++ a :: l2.filter (mine c ss) := by
          rw [← eaw, hl, filter_mid _ _ _ hma]
        have haE : a ∈ st.awaiting.filter (mine c ss) := by rw [hE]; simp
        have hflow : a.flows = none := (ho.waiting a haE).mpr (Or.inl ⟨d, hmem, hT.trans ha.symm⟩)
        have hstat : a.status.isTerminated = false := by
          rw [(hs.ent a (List.mem_filter.mp haE).1 hma).2.2.2]; rfl
        rw [hstat]
        generalize hfl : flowsToRun cfg false = fl
        -- the others
        have hoth : ∀ b ∈ l1.filter (mine c ss) ++ l2.filter (mine c ss), b.sid ≠ t ∧
            b ∈ st.awaiting.filter (mine c ss) := by
          intro b hb
          have hbE : b ∈ st.awaiting.filter (mine c ss) := by
            rw [hE]
            simp only [List.mem_append, List.mem_cons] at hb ⊢
            rcases hb with hb | hb
            · exact Or.inl hb
            · exact Or.inr (Or.inr hb)
          refine ⟨?_, hbE⟩
          intro eb
          have hn := hnd
          rw [← ho.sids, hE, List.map_append, List.map_cons, List.nodup_append] at hn
          obtain ⟨n1, n2, n3⟩ := hn
          rw [List.nodup_cons] at n2
          rcases List.mem_append.mp hb with hb | hb
          · exact n3 _ (List.mem_map.mpr ⟨b, hb, rfl⟩) a.sid (by simp) (eb.trans ha.symm)
          · exact n2.1 (List.mem_map.mpr ⟨b, hb, eb.trans ha.symm⟩)
        have side2 := started1_side k0.1 t l1 l2 a fl hl ha
        have aw2 : (started1 t l1 l2 a fl { st1 with sessions := st1.sessions.filter (fun p => p.sid ≠ t) }).awaiting.filter (mine c ss)
            = l1.filter (mine c ss) ++ { a with flows := some ((List.range fl.length).map (fun k => st1.next + k)) } :: l2.filter (mine c ss) :=
          filter_mid l1 l2 _ hma
        have memE : ∀ b ∈ (started1 t l1 l2 a fl { st1 with sessions := st1.sessions.filter (fun p => p.sid ≠ t) }).awaiting.filter (mine c ss),
            b ∈ l1.filter (mine c ss) ++ l2.filter (mine c ss) ∨
            b = { a with flows := some ((List.range fl.length).map (fun k => st1.next + k)) } := by
          intro b hb
          rw [aw2] at hb
          simp only [List.mem_append, List.mem_cons] at hb ⊢
          rcases hb with hb | hb | hb
          · exact Or.inl (Or.inl hb)
          · exact Or.inr hb
          · exact Or.inl (Or.inr hb)
        have hrunmem : ∀ w s, (w, s) ∈ (started1 t l1 l2 a fl { st1 with sessions := st1.sessions.filter (fun p => p.sid ≠ t) }).running ↔
            (w, s) ∈ st.running ∨ (s = t ∧ w ∈ (List.range fl.length).map (fun k => st1.next + k)) := by
          intro w s
          show (w, s) ∈ st1.running ++ _ ↔ _
          rw [List.mem_append, erun]
          constructor
          · rintro (hw | hw)
            · exact Or.inl hw
            · obtain ⟨w', hw', e⟩ := List.mem_map.mp hw
              cases e
              exact Or.inr ⟨rfl, hw'⟩
          · rintro (hw | ⟨rfl, hw⟩)
            · exact Or.inl hw
            · exact Or.inr (List.mem_map.mpr ⟨w, hw, rfl⟩)
        have open2 : Open cfg c ss (started1 t l1 l2 a fl
            { st1 with sessions := st1.sessions.filter (fun p => p.sid ≠ t) }) := by
          refine ⟨?_, notes1, Or.inl ⟨cont1, pend1⟩, ?_, ?_, ?_, ?_, ?_⟩
          · rw [aw2]
            have := ho.sids
            rw [hE] at this
            simpa using this
          · intro d' hd'
            refine ho.finS d' ?_
            rw [hfil]
            replace hd' : d' ∈ st1.finished.filter (mineC c ss) := hd'
            rw [fin1] at hd'
            exact List.mem_cons_of_mem _ hd'
          · show ((st1.finished.filter (mineC c ss)).map _).Nodup
            rw [fin1]
            have := ho.finNodup
            rw [hfil, List.map_cons, List.nodup_cons] at this
            exact this.2
          · intro b hb
            show _ ↔ (∃ d ∈ st1.finished.filter (mineC c ss), d.session = b.sid) ∨ (∃ d ∈ st1.pending.filter (mineC c ss), d.session = b.sid)
            rw [fin1, pend1]
            rcases memE b hb with hb | rfl
            · obtain ⟨hne, hbE⟩ := hoth b hb
              rw [ho.waiting b hbE, hfil, hpend]
              constructor
              · rintro (⟨d', hd', e'⟩ | ⟨d', hd', _⟩)
                · rcases List.mem_cons.mp hd' with rfl | hd'
                  · exact absurd (e'.symm.trans hT) hne
                  · exact Or.inl ⟨d', hd', e'⟩
                · cases hd'
              · rintro (⟨d', hd', e'⟩ | ⟨d', hd', _⟩)
                · exact Or.inl ⟨d', List.mem_cons_of_mem _ hd', e'⟩
                · cases hd'
            · constructor
              · intro e'; cases e'
              · rintro (⟨d', hd', e'⟩ | ⟨d', hd', _⟩)
                · exact absurd (e'.trans ha) (hnof d' hd')
                · cases hd'
          · intro b hb hbn w hw
            rcases memE b hb with hb | rfl
            · obtain ⟨hne, hbE⟩ := hoth b hb
              rcases (hrunmem w b.sid).mp hw with hw | ⟨e', _⟩
              · exact ho.idle b hbE hbn w hw
              · exact hne e'
            · cases hbn
          · intro b hb l hbl
            rcases memE b hb with hb | rfl
            · obtain ⟨hne, hbE⟩ := hoth b hb
              obtain ⟨i1, i2, i3⟩ := ho.run b hbE l hbl
              refine ⟨?_, ?_, ?_⟩
              · intro w
                rw [hrunmem]
                constructor
                · rintro (hw | ⟨e', _⟩)
                  · exact (i1 w).mp hw
                  · exact absurd e' hne
                · intro hw; exact Or.inl ((i1 w).mpr hw)
              · intro x hx
                have hx' : x ∈ st1.sessions.filter (fun p => p.sid ≠ t) := hx
                rw [esess] at hx'
                exact i2 x (List.mem_filter.mp hx').1
              · intro f hf
                show (b.sid, f) ∈ st1.started ++ _
                rw [estart]
                exact List.mem_append_left _ (i3 f hf)
            · cases hbl
              refine ⟨?_, ?_, ?_⟩
              · intro w
                rw [hrunmem]
                constructor
                · rintro (hw | ⟨_, hw⟩)
                  · exact absurd hw (ho.idle a haE hflow w)
                  · exact hw
                · intro hw; exact Or.inr ⟨ha, hw⟩
              · intro x hx
                have hx' : x ∈ st1.sessions.filter (fun p => p.sid ≠ t) := hx
                show x.sid ≠ a.sid
                rw [ha]
                simpa using (List.mem_filter.mp hx').2
              · intro f hf
                show (a.sid, f) ∈ st1.started ++ fl.map (fun f => (t, f))
                rw [ha]
                rw [hfl] at hf
                exact List.mem_append_right _ (List.mem_map.mpr ⟨f, hf, rfl⟩)
        by_cases hemp : fl = []
        · rw [if_pos hemp]
          refine finalize_mine cfg _ _ _ side2 (get_mid _ _ _) hma ?_ open2 asked1
          dsimp only
          rw [hemp]; rfl
        · rw [if_neg hemp]
          refine ⟨side2, Or.inl ⟨open2, ?_⟩, asked1⟩
          refine ⟨{ a with flows := some ((List.range fl.length).map (fun k => st1.next + k)) }, ?_, ?_⟩
          · rw [aw2]; simp
          · cases fl with
            | nil => exact absurd rfl hemp
            | cons f l => simp [List.range_succ]

end Verif.Scope
