import Verif.Scope.AnswerSpec
import Verif.Scope.Calm3
import Verif.Scope.Fate

/-
The invariant of a scope that was asked by its parent to clean up a session: events that
concern other sessions.
-/
set_option linter.unusedSimpArgs false
set_option linter.unusedVariables false
namespace Verif.Scope

variable {α κ : Type}

/-- The entry has to do with the session or with the request. -/
def mine (c : Cleanup) (ss : List Ent) (a : Awaiting κ) : Bool :=
  ss.contains a.sid || a.parent == c.session || a.cleanup.id == c.id

/-- The clean request has to do with the session or with the request of the parent. -/
def mineC (c : Cleanup) (ss : List Ent) (d : Cleanup) : Bool := ss.contains d.session || d.id == c.id

/-- What holds in all phases. -/
structure Side (c : Cleanup) (ss : List Ent) (st : State α κ) : Prop where
  idB : c.id < st.next
  sB : ∀ s ∈ ss, s < st.next
  sidB : ∀ x ∈ st.sessions, x.sid < st.next
  sess : ∀ x ∈ st.sessions, x.sid ≠ c.id ∧ (x.parent = c.session → x.sid ∈ ss) ∧
    (x.sid ∈ ss → x.status = .cleanup) ∧ (x.parent = c.id → c.id = c.session)
  aliveP : ∀ x ∈ st.sessions, ∀ q, st.alive x.sid = some q → q = x.parent
  ent : ∀ a ∈ st.awaiting, mine c ss a = true →
    a.sid ∈ ss ∧ a.parent = c.session ∧ a.cleanup = c ∧ a.status = .earlyCleanup
  flowB : ∀ a ∈ st.awaiting, ∀ l, a.flows = some l → ∀ w ∈ l, w < st.next
  runB : ∀ r ∈ st.running, r.1 < st.next
  apart : ∀ a ∈ st.awaiting, ∀ l, a.flows = some l → ∀ w ∈ l, ∀ s ∈ ss, (w, s) ∈ st.running →
    s = a.sid

/-- Nothing that concerns the session or the request has changed. -/
structure Same (c : Cleanup) (ss : List Ent) (st st' : State α κ) : Prop where
  aw : st'.awaiting.filter (mine c ss) = st.awaiting.filter (mine c ss)
  cont : st'.contents c.id = st.contents c.id
  pend : st'.pending.filter (mineC c ss) = st.pending.filter (mineC c ss)
  fin : st'.finished.filter (mineC c ss) = st.finished.filter (mineC c ss)
  run : ∀ s ∈ ss, ∀ w, (w, s) ∈ st'.running ↔ (w, s) ∈ st.running
  notes : answers c st' = answers c st
  here : ∀ x ∈ st'.sessions, x.sid ∈ ss → ∃ y ∈ st.sessions, y.sid = x.sid
  asked : ∀ d ∈ st.asked, d ∈ st'.asked
  started : ∀ f ∈ st.started, f ∈ st'.started

theorem Same.refl (c : Cleanup) (ss : List Ent) (st : State α κ) : Same c ss st st :=
  ⟨rfl, rfl, rfl, rfl, fun _ _ _ => Iff.rfl, rfl, fun x hx _ => ⟨x, hx, rfl⟩, fun _ h => h, fun _ h => h⟩

theorem Same.trans {c : Cleanup} {ss : List Ent} {a b d : State α κ} (h : Same c ss a b)
    (g : Same c ss b d) : Same c ss a d :=
  ⟨g.aw.trans h.aw, g.cont.trans h.cont, g.pend.trans h.pend, g.fin.trans h.fin,
   fun s hs w => (g.run s hs w).trans (h.run s hs w), g.notes.trans h.notes,
   fun x hx e => by
     obtain ⟨y, hy, e'⟩ := g.here x hx e
     obtain ⟨z, hz, e2⟩ := h.here y hy (by rw [e']; exact e)
     exact ⟨z, hz, e2.trans e'⟩,
   fun d hd => g.asked d (h.asked d hd), fun f hf => g.started f (h.started f hf)⟩

/-- A step that does not concern the session. -/
def Keep (c : Cleanup) (ss : List Ent) (st st' : State α κ) : Prop := Side c ss st' ∧ Same c ss st st'

theorem Keep.trans {c : Cleanup} {ss : List Ent} {a b d : State α κ} (h : Keep c ss a b)
    (g : Keep c ss b d) : Keep c ss a d := ⟨g.1, h.2.trans g.2⟩

theorem Keep.refl {c : Cleanup} {ss : List Ent} {st : State α κ} (h : Side c ss st) : Keep c ss st st :=
  ⟨h, Same.refl c ss st⟩

theorem answers_emit (c : Cleanup) (st : State α κ) (o : Out α κ) (h : o.isAnswer c = false) :
    answers c (st.emit o) = answers c st := by
  simp [answers, State.emit, List.filter_append, h]

theorem Keep.emit {c : Cleanup} {ss : List Ent} {st : State α κ} (h : Side c ss st) (o : Out α κ)
    (ho : o.isAnswer c = false) : Keep c ss st (st.emit o) :=
  ⟨⟨h.1, h.2, h.3, h.4, h.5, h.6, h.7, h.8, h.9⟩,
   { Same.refl c ss st with notes := answers_emit c st o ho }⟩

/-- `register` for another request. -/
theorem register_keep {c : Cleanup} {ss : List Ent} {st : State α κ} (h : Side c ss st) (d : Cleanup)
    (hd : mineC c ss d = false) : Keep c ss st (st.register d) := by
  have hid : d.id ≠ c.id := by
    intro e; simp [mineC, e] at hd
  unfold State.register
  split
  · exact Keep.refl h
  · rename_i nodes hc
    dsimp only
    split
    · refine ⟨⟨h.1, h.2, h.3, h.4, h.5, h.6, h.7, h.8, h.9⟩, { Same.refl c ss st with cont := ?_, fin := ?_ }⟩
      · show (if c.id = d.id then _ else _) = _
        rw [if_neg (Ne.symm hid)]
      · show List.filter _ (d :: st.finished) = _
        rw [List.filter_cons_of_neg (by rw [hd]; simp)]
    · refine ⟨⟨h.1, h.2, h.3, h.4, h.5, h.6, h.7, h.8, h.9⟩, { Same.refl c ss st with cont := ?_ }⟩
      show (if c.id = d.id then _ else _) = _
      rw [if_neg (Ne.symm hid)]

theorem clean_keep {c : Cleanup} {ss : List Ent} {st : State α κ} (h : Side c ss st) (d : Cleanup)
    (now : Bool) (hd : mineC c ss d = false) : Keep c ss st (st.clean d now) := by
  unfold State.clean
  dsimp only
  have k : Keep c ss st { st with asked := st.asked ++ [d] } :=
    ⟨⟨h.1, h.2, h.3, h.4, h.5, h.6, h.7, h.8, h.9⟩,
     { Same.refl c ss st with asked := fun e he => List.mem_append_left _ he }⟩
  split
  · exact k.trans (register_keep k.1 d hd)
  · refine k.trans ⟨⟨h.1, h.2, h.3, h.4, h.5, h.6, h.7, h.8, h.9⟩, { Same.refl c ss _ with pend := ?_ }⟩
    show List.filter _ (st.pending ++ [d]) = _
    rw [List.filter_append, List.filter_cons_of_neg (by rw [hd]; simp)]
    simp

theorem cleanNodes_keep {c : Cleanup} {ss : List Ent} (self t id : Ent) (now : List (Ent × Ent))
    (ht : t ∉ ss) (hid : id ≠ c.id) (ns : List Ent) :
    ∀ st : State α κ, Side c ss st → Keep c ss st (cleanNodes self t id now ns st) := by
  induction ns with
  | nil => intro st h; exact Keep.refl h
  | cons n ns ih =>
    intro st h
    have k := clean_keep h { cleaner := self, node := n, session := t, id } (now.contains (n, t))
      (by simp [mineC, ht, hid])
    exact k.trans (ih _ k.1)

theorem filter_append_neg {β : Type} (q : β → Bool) (l : List β) (a : β) (h : q a = false) :
    (l ++ [a]).filter q = l.filter q := by
  simp [List.filter_append, h]

theorem cleanOne_keep (cfg : Cfg) {c : Cleanup} {ss : List Ent} (c' : Cleanup) (status : Finish κ)
    (now : List (Ent × Ent)) (t : Ent) (st : State α κ) (h : Side c ss st) (ht : t ∉ ss)
    (hid : c'.id ≠ c.id) (hp : ∀ q, st.alive t = some q → q ≠ c.session) (st' : State α κ)
    (he : cleanOne cfg c' status now t st = some st') :
    Keep c ss st st' ∧ st'.alive = st.alive := by
  unfold cleanOne at he
  cases ha : st.alive t with
  | none => rw [ha] at he; cases he
  | some q =>
    rw [ha] at he
    dsimp only at he
    have hm : mine c ss ({ sid := t, parent := q, cleanup := c', status } : Awaiting κ) = false := by
      simp [mine, ht, hid, hp q ha]
    have k : Keep c ss st { st with awaiting := st.awaiting ++ [{ sid := t, parent := q, cleanup := c', status }] } := by
      refine ⟨⟨h.1, h.2, h.3, h.4, h.5, ?_, ?_, h.8, ?_⟩,
        { Same.refl c ss st with aw := filter_append_neg _ _ _ hm }⟩
      · intro a hx hma
        rcases List.mem_append.mp hx with hx | hx
        · exact h.ent a hx hma
        · rw [List.mem_singleton.mp hx, hm] at hma; cases hma
      · intro a hx l hl
        rcases List.mem_append.mp hx with hx | hx
        · exact h.flowB a hx l hl
        · rw [List.mem_singleton.mp hx] at hl; cases hl
      · intro a hx l hl
        rcases List.mem_append.mp hx with hx | hx
        · exact h.apart a hx l hl
        · rw [List.mem_singleton.mp hx] at hl; cases hl
    split at he
    · cases he
      refine ⟨k.trans ⟨⟨k.1.1, k.1.2, k.1.3, k.1.4, k.1.5, k.1.6, k.1.7, k.1.8, k.1.9⟩, { Same.refl c ss _ with fin := ?_ }⟩, rfl⟩
      show List.filter _ (_ :: st.finished) = _
      rw [List.filter_cons_of_neg (by simp [mineC, ht, hid])]
    · cases he
      have k2 : Keep c ss st { st with
          awaiting := st.awaiting ++ [{ sid := t, parent := q, cleanup := c', status }]
          contents := fun i => if i = c'.id then some cfg.nodes else st.contents i } := by
        refine k.trans ⟨⟨k.1.1, k.1.2, k.1.3, k.1.4, k.1.5, k.1.6, k.1.7, k.1.8, k.1.9⟩, { Same.refl c ss _ with cont := ?_ }⟩
        show (if c.id = c'.id then _ else _) = _
        rw [if_neg (Ne.symm hid)]
      exact ⟨k2.trans (cleanNodes_keep _ _ _ _ ht hid _ _ k2.1), (cleanNodes_frame _ _ _ _ _ _).alive⟩

theorem cleanupEntire_keep (cfg : Cfg) {c : Cleanup} {ss : List Ent} (c' : Cleanup) (status : Finish κ)
    (now : List (Ent × Ent)) (hid : c'.id ≠ c.id) : ∀ (ts : List Ent) (st : State α κ),
    Side c ss st → (∀ t ∈ ts, t ∉ ss ∧ ∀ q, st.alive t = some q → q ≠ c.session) →
    Keep c ss st (cleanupEntire cfg c' status now ts st) := by
  intro ts
  induction ts with
  | nil => intro st h _; exact Keep.refl h
  | cons t ts ih =>
    intro st h hts
    unfold cleanupEntire
    cases ho : cleanOne cfg c' status now t st with
    | none => exact Keep.emit h _ rfl
    | some st1 =>
      obtain ⟨h1, h2⟩ := hts t (by simp)
      obtain ⟨k, ka⟩ := cleanOne_keep cfg c' status now t st h h1 hid h2 st1 ho
      refine k.trans (ih st1 k.1 ?_)
      intro t' ht'
      rw [ka]
      exact hts t' (by simp [ht'])

/-- A session that is not `s`, for the list of sessions to be cleaned up. -/
theorem Side.other {c : Cleanup} {ss : List Ent} {st : State α κ} (h : Side c ss st) {x : Scoped}
    (hx : x ∈ st.sessions) (hs : x.sid ∉ ss) :
    x.sid ∉ ss ∧ ∀ q, st.alive x.sid = some q → q ≠ c.session := by
  refine ⟨hs, ?_⟩
  intro q hq e
  have := h.aliveP x hx q hq
  exact hs ((h.sess x hx).2.1 (this.symm.trans e))

/-- New states of the sessions. -/
theorem sessions_keep {c : Cleanup} {ss : List Ent} {st : State α κ} (h : Side c ss st) (l : List Scoped)
    (hl : ∀ y ∈ l, ∃ x ∈ st.sessions, y.sid = x.sid ∧ y.parent = x.parent ∧
      (x.status = .cleanup → y.status = .cleanup)) :
    Keep c ss st { st with sessions := l } := by
  refine ⟨⟨h.1, h.2, ?_, ?_, ?_, h.6, h.7, h.8, h.9⟩, { Same.refl c ss st with here := ?_ }⟩
  · intro y hy
    obtain ⟨x, hx, e1, _, _⟩ := hl y hy
    rw [e1]; exact h.sidB x hx
  · intro y hy
    obtain ⟨x, hx, e1, e2, e3⟩ := hl y hy
    obtain ⟨g1, g2, g3, g4⟩ := h.sess x hx
    rw [e1, e2]
    exact ⟨g1, g2, fun e => e3 (g3 e), g4⟩
  · intro y hy
    obtain ⟨x, hx, e1, e2, _⟩ := hl y hy
    rw [e1, e2]; exact h.aliveP x hx
  · intro y hy e
    obtain ⟨x, hx, e1, _, _⟩ := hl y hy
    exact ⟨x, hx, e1.symm⟩

theorem transition_mem (p : Scoped → Bool) (f : Status → Status × Bool) (l : List Scoped) :
    (∀ y ∈ (transition p f l).1, ∃ x ∈ l, y.sid = x.sid ∧ y.parent = x.parent ∧
      (y.status = x.status ∨ y.status = (f x.status).1)) ∧
    (∀ t ∈ (transition p f l).2, ∃ x ∈ l, x.sid = t ∧ p x = true ∧ (f x.status).2 = true) := by
  constructor
  · intro y hy
    simp only [transition, List.mem_map] at hy
    obtain ⟨x, hx, rfl⟩ := hy
    refine ⟨x, hx, ?_⟩
    split <;> simp
  · intro t ht
    simp only [transition, List.mem_map, List.mem_filter, Bool.and_eq_true] at ht
    obtain ⟨x, ⟨hx, h1, h2⟩, rfl⟩ := ht
    exact ⟨x, hx, rfl, h1, h2⟩

/-- A transition of the status and the cleanup that follows. -/
theorem transition_keep (cfg : Cfg) {c : Cleanup} {ss : List Ent} (c' : Cleanup) (status : Finish κ)
    (now : List (Ent × Ent)) (p : Scoped → Bool) (f : Status → Status × Bool)
    (hf : f .cleanup = (.cleanup, false)) (st : State α κ) (h : Side c ss st)
    (hid : c'.id = c.id → ∀ x ∈ st.sessions, p x = true → x.sid ∈ ss) :
    Keep c ss st { st with sessions := (transition p f st.sessions).1 } ∧
    Keep c ss st (cleanupEntire cfg c' status now (transition p f st.sessions).2
      { st with sessions := (transition p f st.sessions).1 }) := by
  obtain ⟨t1, t2⟩ := transition_mem p f st.sessions
  have k : Keep c ss st { st with sessions := (transition p f st.sessions).1 } := by
    refine sessions_keep h _ ?_
    intro y hy
    obtain ⟨x, hx, e1, e2, e3⟩ := t1 y hy
    refine ⟨x, hx, e1, e2, ?_⟩
    intro e
    rw [e, hf] at e3
    simpa using e3
  refine ⟨k, ?_⟩
  have hne : ∀ t ∈ (transition p f st.sessions).2, t ∉ ss ∧
      ∀ q, st.alive t = some q → q ≠ c.session := by
    intro t ht
    obtain ⟨x, hx, rfl, _, hc⟩ := t2 t ht
    refine h.other hx ?_
    intro e
    rw [(h.sess x hx).2.2.1 e, hf] at hc
    cases hc
  by_cases he : c'.id = c.id
  · have : (transition p f st.sessions).2 = [] := by
      cases hl : (transition p f st.sessions).2 with
      | nil => rfl
      | cons t l =>
        have ht : t ∈ (transition p f st.sessions).2 := by rw [hl]; simp
        obtain ⟨x, hx, e, hp, _⟩ := t2 t ht
        exact absurd (by rw [← e]; exact hid he x hx hp) (hne t ht).1
    rw [this]
    exact k
  · exact k.trans (cleanupEntire_keep cfg c' status now he _ _ k.1 hne)

theorem cancelOne_keep (cfg : Cfg) {c : Cleanup} {ss : List Ent} (t : Ent) (k : κ)
    (now : List (Ent × Ent)) (st : State α κ) (h : Side c ss st) :
    Keep c ss st (cancelOne cfg t k now st) := by
  unfold cancelOne
  refine (transition_keep cfg _ _ now _ Status.toCancelled rfl st h ?_).2
  intro e x hx hp
  dsimp only at e
  subst e
  obtain ⟨g1, g2, g3, g4⟩ := h.sess x hx
  simp only [Bool.or_eq_true, beq_iff_eq] at hp
  rcases hp with hp | hp
  · exact absurd hp g1
  · exact g2 (hp.trans (g4 hp))

theorem cancelAll_keep (cfg : Cfg) {c : Cleanup} {ss : List Ent} (k : κ) (now : List (Ent × Ent)) :
    ∀ (l : List Ent) (st : State α κ), Side c ss st → Keep c ss st (cancelAll cfg k now l st) := by
  intro l
  induction l with
  | nil => intro st h; exact Keep.refl h
  | cons t l ih =>
    intro st h
    have g := cancelOne_keep cfg t k now st h
    exact g.trans (ih _ g.1)

theorem one_keep (cfg : Cfg) {c : Cleanup} {ss : List Ent} (t : Ent) (f : Status → Status × Bool)
    (hf : f .cleanup = (.cleanup, false)) (status : Finish κ) (now : List (Ent × Ent))
    (st : State α κ) (h : Side c ss st) (l : List Scoped) (b : Bool)
    (ht : transitionOne t f st.sessions = some (l, b)) :
    Keep c ss st (if b then
        cleanupEntire cfg { cleaner := cfg.self, node := cfg.self, session := t, id := t }
          status now [t] { st with sessions := l }
      else { st with sessions := l }) := by
  have hspec := transitionOne_spec t f st.sessions
  rw [ht] at hspec
  obtain ⟨l1, x, l2, h1, h2, h3, h4, h5⟩ := hspec
  have hx : x ∈ st.sessions := by rw [h1]; simp
  have k : Keep c ss st { st with sessions := l } := by
    refine sessions_keep h _ ?_
    intro y hy
    rw [h4] at hy
    simp only [List.mem_append, List.mem_cons] at hy
    rcases hy with hy | rfl | hy
    · exact ⟨y, by rw [h1]; simp [hy], rfl, rfl, id⟩
    · refine ⟨x, hx, rfl, rfl, ?_⟩
      intro e
      show (f x.status).1 = _
      rw [e, hf]
    · exact ⟨y, by rw [h1]; simp [hy], rfl, rfl, id⟩
  cases hb : b with
  | false => exact k
  | true =>
    have hts : t ∉ ss := by
      intro e
      rw [(h.sess x hx).2.2.1 (by rw [h2]; exact e), hf] at h5
      rw [hb] at h5; cases h5
    refine k.trans (cleanupEntire_keep cfg _ status now ?_ [t] _ k.1 ?_)
    · show t ≠ c.id
      rw [← h2]; exact (h.sess x hx).1
    · intro t' ht'
      rw [List.mem_singleton.mp ht', ← h2]
      exact h.other hx (by rw [h2]; exact hts)

theorem validate_keep (cfg : Cfg) {c : Cleanup} {ss : List Ent} (t : Ent) (u : Option κ)
    (now : List (Ent × Ent)) (st : State α κ) (h : Side c ss st) :
    Keep c ss st (validate cfg t u now st) := by
  unfold validate
  split
  · exact Keep.refl h
  · split
    · exact Keep.refl h
    · rename_i l b ht
      exact one_keep cfg t _ rfl _ now st h l b ht

theorem terminate_keep (cfg : Cfg) {c : Cleanup} {ss : List Ent} (t : Ent) (v : α)
    (now : List (Ent × Ent)) (st : State α κ) (h : Side c ss st) :
    Keep c ss st (terminate cfg t v now st) := by
  unfold terminate
  dsimp only
  have k : ∀ st' : State α κ, st' = { st with values := st'.values, staging := st'.staging } →
      Keep c ss st st' := by
    intro st' e
    rw [e]
    exact ⟨⟨h.1, h.2, h.3, h.4, h.5, h.6, h.7, h.8, h.9⟩, { Same.refl c ss st with }⟩
  split
  · exact k _ rfl
  · split
    · exact (k _ rfl).trans (Keep.emit (k { st with values := _, staging := _ } rfl).1 _ rfl)
    · rename_i l b ht
      have k1 := k { st with
        values := st.values ++ [(t, v)]
        staging := fun i => if i = t then some v else st.staging i } rfl
      exact k1.trans (one_keep cfg t _ rfl _ now _ k1.1 l b ht)

theorem begin_keep (cfg : Cfg) {c : Cleanup} {ss : List Ent} (p : Ent) (bl : Bool) (ci u : Option κ)
    (now : List (Ent × Ent)) (st : State α κ) (h : Side c ss st) (hp : p ≠ c.session)
    (hi : p ≠ c.id) : Keep c ss st (beginScope cfg p bl ci u now st) := by
  have k : Keep c ss st { st with
      next := st.next + 1
      begun := st.begun ++ [(st.next, p)]
      alive := fun i => if i = st.next then some p else st.alive i
      exits := fun i => if i = st.next ∧ cfg.workflow then some bl else st.exits i
      sessions := st.sessions ++ [{ parent := p, sid := st.next, status := .ongoing }] } := by
    refine ⟨⟨Nat.lt_succ_of_lt h.1, fun s hs => Nat.lt_succ_of_lt (h.2 s hs), ?_, ?_, ?_, h.6, ?_, ?_, h.9⟩,
      { Same.refl c ss st with here := ?_ }⟩
    · intro x hx
      rcases List.mem_append.mp hx with hx | hx
      · exact Nat.lt_succ_of_lt (h.sidB x hx)
      · rw [List.mem_singleton.mp hx]; exact Nat.lt_succ_self _
    · intro x hx
      rcases List.mem_append.mp hx with hx | hx
      · exact h.sess x hx
      · rw [List.mem_singleton.mp hx]
        refine ⟨Nat.ne_of_gt h.idB, fun e => absurd e hp, fun e => absurd rfl (Nat.ne_of_lt (h.sB _ e)), fun e => absurd e hi⟩
    · intro x hx q hq
      rcases List.mem_append.mp hx with hx | hx
      · dsimp only at hq
        rw [if_neg (Nat.ne_of_lt (h.sidB x hx))] at hq
        exact h.aliveP x hx q hq
      · rw [List.mem_singleton.mp hx] at hq ⊢
        simpa using hq.symm
    · intro a ha l hl w hw
      exact Nat.lt_succ_of_lt (h.flowB a ha l hl w hw)
    · intro r hr
      exact Nat.lt_succ_of_lt (h.runB r hr)
    · intro x hx e
      rcases List.mem_append.mp hx with hx | hx
      · exact ⟨x, hx, rfl⟩
      · rw [List.mem_singleton.mp hx] at e
        exact absurd rfl (Nat.ne_of_lt (h.sB _ e))
  have ki : ∀ (st' : State α κ) i, Keep c ss st st' → Keep c ss st { st' with initial := i } := by
    intro st' i h'
    exact h'.trans ⟨⟨h'.1.1, h'.1.2, h'.1.3, h'.1.4, h'.1.5, h'.1.6, h'.1.7, h'.1.8, h'.1.9⟩,
      { Same.refl c ss st' with }⟩
  unfold beginScope
  dsimp only
  split
  · exact k.trans (cancelOne_keep cfg _ _ now _ k.1)
  · exact k.trans (validate_keep cfg _ _ now _ k.1)
  · exact k
  · split
    · rename_i cause
      have k1 := ki _ (some (.error cause)) k
      exact k1.trans (cancelOne_keep cfg _ _ now _ k1.1)
    · exact ki _ _ (k.trans (validate_keep cfg _ _ now _ k.1))

theorem dynCleanup_keep (cfg : Cfg) {c : Cleanup} {ss : List Ent} (c' : Cleanup)
    (now : List (Ent × Ent)) (st : State α κ) (h : Side c ss st) (hi : c'.id ≠ c.id) :
    Keep c ss st (dynCleanup cfg c' now st) := by
  unfold dynCleanup
  dsimp only
  obtain ⟨k1, k2⟩ := transition_keep cfg c' .earlyCleanup now (fun p => p.parent == c'.session)
    (Status.toCleanup cfg.uninterruptible) rfl st h (fun e => absurd e hi)
  split
  · refine k1.trans (Keep.emit k1.1 _ ?_)
    simp only [Out.isAnswer, decide_eq_false_iff_not]
    rintro rfl; exact hi rfl
  · exact k2

end Verif.Scope
