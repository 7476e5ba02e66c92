import Verif.Zenoh.NodesSpec

/-! Lemmas for C111 and C112. -/
set_option linter.unusedSectionVars false
set_option linter.unusedSimpArgs false

namespace Verif.Zenoh.Nodes

variable {I O C E : Type} {k : Kind I O C E}

theorem loop_enough (r : Run I O C E) (n : Nat) (hn : r.inbox.length < n) :
    (r.closed = false → r.loop k n =
      some ({ r with inbox := [], outs := r.outs ++ r.inbox.map k.item }, none)) ∧
    (r.closed = true → ∀ c, k.onClosed = some c → r.loop k n =
      some ({ r with inbox := [], outs := r.outs ++ r.inbox.map k.item }, some (.ok c))) := by
  obtain ⟨s, ph, arr, inb, cl, sig, outs⟩ := r
  induction inb generalizing n outs with
  | nil =>
    cases n with
    | zero => simp at hn
    | succ n =>
      refine ⟨fun h => ?_, fun h c hc => ?_⟩ <;> simp only at h <;> subst h <;>
        simp [Run.loop, Run.turn]
      rw [hc]
  | cons x inb ih =>
    cases n with
    | zero => simp at hn
    | succ n =>
      obtain ⟨h1, h2⟩ := ih n (outs ++ [k.item x]) (by simpa using hn)
      refine ⟨fun h => ?_, fun h c hc => ?_⟩
      · have := h1 h
        simp only [Run.loop, Run.turn] at this ⊢
        rw [this]; simp
      · have := h2 h c hc
        simp only [Run.loop, Run.turn] at this ⊢
        rw [this]; simp

/-- The loop of a subscription whose channel is closed does not come to an end. -/
theorem loop_closed (hk : k.onClosed = none) (n : Nat) (r : Run I O C E) (h : r.closed = true) :
    r.loop k n = none := by
  induction n generalizing r with
  | zero => rfl
  | succ n ih =>
    simp only [Run.loop, Run.turn]
    cases r.inbox with
    | cons x inb => exact ih _ h
    | nil =>
      rw [if_pos h, hk]
      exact ih _ h

theorem loop_frame (r : Run I O C E) : ∀ (n : Nat) (r' : Run I O C E) (o : Option (Result C E)),
    r.loop k n = some (r', o) → r'.session = r.session ∧ r'.phase = r.phase ∧
    r'.signals = r.signals ∧ r'.closed = r.closed ∧ (PassedOn k r → PassedOn k r') := by
  intro n
  induction n generalizing r with
  | zero => intro r' o h; cases h
  | succ n ih =>
    intro r' o h
    simp only [Run.loop] at h
    unfold Run.turn at h
    cases hi : r.inbox with
    | cons x inb =>
      rw [hi] at h
      simp only at h
      obtain ⟨h1, h2, h3, h4, h5⟩ := ih _ r' o h
      refine ⟨h1, h2, h3, h4, fun hp => h5 ?_⟩
      obtain ⟨t, ht, ho⟩ := hp
      exact ⟨t ++ [x], by simp [ht, hi], by simp [ho]⟩
    | nil =>
      rw [hi] at h
      simp only at h
      by_cases hc : r.closed = true
      · rw [if_pos hc] at h
        cases hk : k.onClosed with
        | some c =>
          rw [hk] at h
          simp only [Option.some.injEq, Prod.mk.injEq] at h
          obtain ⟨rfl, _⟩ := h
          exact ⟨rfl, rfl, rfl, rfl, id⟩
        | none =>
          rw [hk] at h
          simp only at h
          have := loop_closed hk n { r with inbox := [], outs := r.outs ++ [k.closedItem] } hc
          rw [← hi] at this h
          exact absurd (this.symm.trans h) nofun
      · rw [if_neg hc] at h
        simp only [Option.some.injEq, Prod.mk.injEq] at h
        obtain ⟨rfl, _⟩ := h
        exact ⟨rfl, rfl, rfl, rfl, id⟩

theorem work_frame (r r' : Run I O C E) (o : Option (Result C E)) (h : r.work k = some (r', o)) :
    r'.session = r.session ∧ r'.signals = r.signals ∧ r'.closed = r.closed ∧
    (PassedOn k r → PassedOn k r') ∧ (r.phase.live = true → r'.phase.live = true) ∧
    (∀ res b, r.phase ≠ .clearing res b → r'.phase ≠ .clearing res b) := by
  unfold Run.work at h
  split at h
  · cases h; exact ⟨rfl, rfl, rfl, id, id, fun _ _ => id⟩
  · cases h; exact ⟨rfl, rfl, rfl, id, id, fun _ _ => id⟩
  · obtain ⟨h1, h2, h3, h4, h5⟩ := loop_frame _ _ _ _ h
    refine ⟨h1, h3, h4, fun hp => h5 hp, fun _ => ?_, fun _ _ _ => ?_⟩
    · rw [h2]; rfl
    · rw [h2]; nofun
  · rename_i hph
    obtain ⟨h1, h2, h3, h4, h5⟩ := loop_frame _ _ _ _ h
    refine ⟨h1, h3, h4, fun hp => h5 hp, fun _ => ?_, fun _ _ _ => ?_⟩
    · rw [h2, hph]; rfl
    · rw [h2, hph]; nofun
  · cases h; exact ⟨rfl, rfl, rfl, id, id, fun _ _ => id⟩

theorem race_frame (r r' : Run I O C E) (b : Bool) (o : Option (Result C E))
    (h : r.race k b = some (r', o)) :
    r'.session = r.session ∧ r'.signals = r.signals ∧ r'.closed = r.closed ∧
    (PassedOn k r → PassedOn k r') ∧ (r.phase.live = true → r'.phase.live = true) := by
  unfold Run.race at h
  split at h
  · cases h; exact ⟨rfl, rfl, rfl, id, id⟩
  · split at h
    · cases h
    · cases h
      rename_i hw
      have := work_frame _ _ _ hw
      exact ⟨this.1, this.2.1, this.2.2.1, this.2.2.2.1, this.2.2.2.2.1⟩
    · cases h
      rename_i hw
      have := work_frame _ _ _ hw
      exact ⟨this.1, this.2.1, this.2.2.1, this.2.2.2.1, this.2.2.2.2.1⟩

/-! ### The node -/

theorem live_opening (res : Option (Except E Unit)) : (Phase.opening (C := C) res).live = true := rfl
theorem live_rejected : (Phase.rejected : Phase C E).live = false := rfl
theorem live_clearing (res : Result C E) (b : Bool) :
    (Phase.clearing res b).live = false := rfl
theorem live_dropped : (Phase.dropped : Phase C E).live = false := rfl

def cnt (w : Node I O C E) (s : Nat) : Nat :=
  w.runs.countP fun r => decide (r.session = s) && r.phase.live

def pend (w : Node I O C E) (s : Nat) : Nat := w.commands.countP fun x => decide (x.2 = s)

structure Inv (k : Kind I O C E) (w : Node I O C E) : Prop where
  passed : ∀ r ∈ w.runs, PassedOn k r
  count : ∀ s, w.ended s = false → cnt w s + pend w s = w.active s
  one : ∀ s, w.active s ≤ 1
  over : ∀ s, w.ended s = true → ∀ r ∈ w.runs, r.session = s → r.phase = .dropped
  gone : ∀ r ∈ w.runs, r.phase = .dropped → w.ended r.session = true
  sent : ∀ x ∈ w.commands, ∃ r, w.runs[x.1]? = some r ∧ r.session = x.2 ∧
    (r.phase.leaving = true ∨ r.phase = .dropped)
  wait : ∀ (i : Nat) r, w.runs[i]? = some r → r.phase.leaving = true →
    (i, r.session) ∈ w.commands

theorem Inv.init : Inv k ({} : Node I O C E) := by
  constructor <;> simp [cnt, pend]

theorem countP_set' {α : Type} (p : α → Bool) (l : List α) (i : Nat) (a x : α)
    (h : l[i]? = some x) :
    (l.set i a).countP p + (if p x then 1 else 0) = l.countP p + (if p a then 1 else 0) := by
  induction l generalizing i with
  | nil => simp at h
  | cons y l ih =>
    cases i with
    | zero =>
      simp at h
      subst h
      simp only [List.set_cons_zero, List.countP_cons]
      omega
    | succ i =>
      simp only [List.getElem?_cons_succ] at h
      have := ih i h
      simp only [List.set_cons_succ, List.countP_cons]
      omega

/-- One run is changed, and neither ends nor begins. -/
theorem Inv.same {w : Node I O C E} (h : Inv k w) (i : Nat) (r r' : Run I O C E)
    (hr : w.runs[i]? = some r) (hs : r'.session = r.session)
    (hp : PassedOn k r → PassedOn k r') (hl : r'.phase.live = r.phase.live)
    (hv : r'.phase.leaving = r.phase.leaving)
    (hd : r'.phase = .dropped ↔ r.phase = .dropped) : Inv k (w.setRun i r') := by
  have hmem : r ∈ w.runs := List.mem_of_getElem? hr
  constructor
  · intro x hx
    rcases List.mem_or_eq_of_mem_set hx with hx | hx
    · exact h.passed x hx
    · subst hx; exact hp (h.passed r hmem)
  · intro s he
    have h0 := h.count s he
    have := countP_set' (fun r => decide (r.session = s) && r.phase.live) w.runs i r' r hr
    simp only [hs, hl] at this
    unfold cnt pend at h0
    unfold cnt pend Node.setRun
    simp only
    omega
  · exact h.one
  · intro s he x hx hxs
    rcases List.mem_or_eq_of_mem_set hx with hx | hx
    · exact h.over s he x hx hxs
    · subst hx; exact hd.2 (h.over s he r hmem (hs ▸ hxs))
  · intro x hx hxd
    rcases List.mem_or_eq_of_mem_set hx with hx | hx
    · exact h.gone x hx hxd
    · subst hx; rw [hs]; exact h.gone r hmem (hd.1 hxd)
  · intro x hx
    obtain ⟨y, h1, h2, h3⟩ := h.sent x hx
    by_cases hi : i = x.1
    · subst hi
      rw [hr] at h1
      cases h1
      refine ⟨r', ?_, hs.trans h2, ?_⟩
      · simp only [Node.setRun]
        rw [List.getElem?_set_self (List.getElem?_eq_some_iff.1 hr).1]
      · rw [hv, hd]; exact h3
    · refine ⟨y, ?_, h2, h3⟩
      simp only [Node.setRun]
      rw [List.getElem?_set_ne hi]; exact h1
  · intro j x hj hx
    simp only [Node.setRun] at hj
    by_cases hi : i = j
    · subst hi
      rw [List.getElem?_set_self (List.getElem?_eq_some_iff.1 hr).1] at hj
      cases hj
      rw [hs]
      exact h.wait i r hr (hv ▸ hx)
    · rw [List.getElem?_set_ne hi] at hj
      exact h.wait j x hj hx

theorem modify_eq {w : Node I O C E} {i : Nat} (f : Run I O C E → Run I O C E) :
    (w.runs[i]? = none ∧ w.runs.modify i f = w.runs) ∨
    ∃ r, w.runs[i]? = some r ∧ w.runs.modify i f = w.runs.set i (f r) := by
  cases hr : w.runs[i]? with
  | none =>
    left
    refine ⟨rfl, ?_⟩
    exact List.modify_eq_self (List.getElem?_eq_none_iff.1 hr)
  | some r =>
    right
    refine ⟨r, rfl, ?_⟩
    haveI : Inhabited (Run I O C E) := ⟨r⟩
    rw [List.modify_eq_set, hr]; rfl

theorem Inv.modify {w : Node I O C E} (h : Inv k w) (i : Nat) (f : Run I O C E → Run I O C E)
    (hf : ∀ r, (f r).session = r.session ∧ (PassedOn k r → PassedOn k (f r)) ∧
      (f r).phase.live = r.phase.live ∧ (f r).phase.leaving = r.phase.leaving ∧
      ((f r).phase = .dropped ↔ r.phase = .dropped)) :
    Inv k { w with runs := w.runs.modify i f } := by
  rcases modify_eq (w := w) (i := i) f with ⟨_, e⟩ | ⟨r, hr, e⟩
  · rw [e]; exact h
  · rw [e]
    obtain ⟨h1, h2, h3, h4, h5⟩ := hf r
    exact h.same i r (f r) hr h1 h2 h3 h4 h5

theorem Inv.trigger {w : Node I O C E} (h : Inv k w) (s : Nat) : Inv k (w.trigger s) := by
  unfold Node.trigger
  split
  · exact h
  rename_i he
  have he : w.ended s = false := by simpa using he
  have hpass : ∀ p : Phase C E, PassedOn k ({ session := s, phase := p } : Run I O C E) :=
    fun _ => ⟨[], rfl, rfl⟩
  have last : ∀ (p : Phase C E) (j : Nat) x,
      (w.runs ++ [{ session := s, phase := p }])[j]? = some x →
      w.runs[j]? = some x ∨ x = ({ session := s, phase := p } : Run I O C E) := by
    intro p j x hj
    by_cases hl : j < w.runs.length
    · rw [List.getElem?_append_left hl] at hj; exact .inl hj
    · have := (List.getElem?_eq_some_iff.1 hj).1
      simp at this
      have : j = w.runs.length := by omega
      subst this
      simp at hj
      exact .inr hj.symm
  have hsent : ∀ (p : Phase C E), ∀ x ∈ w.commands, ∃ r,
      (w.runs ++ [{ session := s, phase := p }])[x.1]? = some r ∧ r.session = x.2 ∧
      (r.phase.leaving = true ∨ r.phase = .dropped) := by
    intro p x hx
    obtain ⟨y, h1, h2⟩ := h.sent x hx
    exact ⟨y, by rw [List.getElem?_append_left (List.getElem?_eq_some_iff.1 h1).1]; exact h1, h2⟩
  split
  · rename_i ha
    constructor
    · intro r hr
      simp only [List.mem_append, List.mem_singleton] at hr
      rcases hr with hr | hr
      · exact h.passed r hr
      · subst hr; exact hpass _
    · intro s' he'
      have := h.count s' he'
      unfold cnt pend at this ⊢
      simp only [List.countP_append, List.countP_singleton, live_opening, Bool.and_true,
        decide_eq_true_eq, @eq_comm _ s]
      by_cases hs : s' = s
      · subst hs
        simp only [if_true]
        omega
      · simp only [if_neg hs]
        omega
    · intro s'
      simp only
      split
      · exact Nat.le_refl _
      · exact h.one s'
    · intro s' he' r hr hrs
      simp only [List.mem_append, List.mem_singleton] at hr
      rcases hr with hr | hr
      · exact h.over s' he' r hr hrs
      · subst hr; simp only at hrs he'; rw [← hrs, he] at he'; cases he'
    · intro r hr hrd
      simp only [List.mem_append, List.mem_singleton] at hr
      rcases hr with hr | hr
      · exact h.gone r hr hrd
      · subst hr; cases hrd
    · exact hsent _
    · intro j x hj hx
      rcases last _ j x hj with hj | hj
      · exact h.wait j x hj hx
      · subst hj; cases hx
  · rename_i ha
    constructor
    · intro r hr
      simp only [List.mem_append, List.mem_singleton] at hr
      rcases hr with hr | hr
      · exact h.passed r hr
      · subst hr; exact hpass _
    · intro s' he'
      have := h.count s' he'
      unfold cnt pend at this ⊢
      simp only [List.countP_append, List.countP_singleton, live_rejected, Bool.and_false,
        Bool.false_eq_true, if_false]
      omega
    · exact h.one
    · intro s' he' r hr hrs
      simp only [List.mem_append, List.mem_singleton] at hr
      rcases hr with hr | hr
      · exact h.over s' he' r hr hrs
      · subst hr; simp only at hrs he'; rw [← hrs, he] at he'; cases he'
    · intro r hr hrd
      simp only [List.mem_append, List.mem_singleton] at hr
      rcases hr with hr | hr
      · exact h.gone r hr hrd
      · subst hr; cases hrd
    · exact hsent _
    · intro j x hj hx
      rcases last _ j x hj with hj | hj
      · exact h.wait j x hj hx
      · subst hj; cases hx

theorem Inv.leave {w : Node I O C E} (h : Inv k w) (i : Nat) (r r' : Run I O C E)
    (res : Result C E) (hr : w.runs[i]? = some r) (hs : r'.session = r.session)
    (hp : PassedOn k r → PassedOn k r') (hl : r.phase.live = true) : Inv k (w.over i r' res) := by
  have hmem : r ∈ w.runs := List.mem_of_getElem? hr
  have hne : w.ended r.session = false := by
    cases he : w.ended r.session with
    | false => rfl
    | true =>
      have := h.over _ he r hmem rfl
      rw [this] at hl
      cases hl
  have hlt := (List.getElem?_eq_some_iff.1 hr).1
  unfold Node.over Node.setRun
  constructor
  · intro x hx
    rcases List.mem_or_eq_of_mem_set hx with hx | hx
    · exact h.passed x hx
    · subst hx; exact hp (h.passed r hmem)
  · intro s he
    rw [← h.count s he]
    have := countP_set' (fun r => decide (r.session = s) && r.phase.live) w.runs i
      { r' with phase := .clearing res false } r hr
    simp only [hs, hl, live_clearing, Bool.and_true, Bool.and_false, decide_eq_true_eq,
      Bool.false_eq_true, if_false] at this
    unfold cnt pend
    simp only [List.countP_append, List.countP_singleton, decide_eq_true_eq, hs]
    omega
  · exact h.one
  · intro s he x hx hxs
    rcases List.mem_or_eq_of_mem_set hx with hx | hx
    · exact h.over s he x hx hxs
    · subst hx
      simp only at hxs he
      rw [← hxs, hs, hne] at he
      cases he
  · intro x hx hxd
    rcases List.mem_or_eq_of_mem_set hx with hx | hx
    · exact h.gone x hx hxd
    · subst hx; cases hxd
  · intro x hx
    simp only [List.mem_append, List.mem_singleton] at hx
    rcases hx with hx | hx
    · obtain ⟨y, h1, h2, h3⟩ := h.sent x hx
      by_cases hi : i = x.1
      · subst hi
        rw [hr] at h1
        cases h1
        exact ⟨_, List.getElem?_set_self hlt, hs.trans h2, .inl rfl⟩
      · exact ⟨y, by rw [List.getElem?_set_ne hi]; exact h1, h2, h3⟩
    · subst hx
      exact ⟨_, List.getElem?_set_self hlt, rfl, .inl rfl⟩
  · intro j x hj hx
    simp only at hj
    by_cases hi : i = j
    · subst hi
      rw [List.getElem?_set_self hlt] at hj
      cases hj
      simp
    · rw [List.getElem?_set_ne hi] at hj
      exact List.mem_append_left _ (h.wait j x hj hx)

theorem Inv.poll {w : Node I O C E} (h : Inv k w) (i : Nat) (b : Bool) : Inv k (w.poll k i b) := by
  unfold Node.poll
  split
  · exact h
  · rename_i r hr
    have hrace : r.phase.live = true → r.phase.leaving = false → r.phase ≠ .dropped →
        Inv k (match r.race k b with
          | none => w.setRun i { r with phase := .stuck }
          | some (r, none) => w.setRun i r
          | some (r, some res) => w.over i r res) := by
      intro hl hv hd
      split
      · exact h.same i r _ hr rfl id (by rw [hl]; rfl) (by rw [hv]; rfl)
          ⟨nofun, fun h => absurd h hd⟩
      · rename_i r' hrace
        obtain ⟨h1, _, _, h4, h5⟩ := race_frame _ _ _ _ hrace
        have hl' := h5 hl
        refine h.same i r _ hr h1 h4 (hl'.trans hl.symm) ?_ ?_
        · rw [hv]
          cases hp : r'.phase <;> rw [hp] at hl' <;> first | rfl | cases hl'
        · refine ⟨fun hp => ?_, fun hp => absurd hp hd⟩
          rw [hp] at hl'
          cases hl'
      · rename_i r' res hrace
        obtain ⟨h1, _, _, h4, _⟩ := race_frame _ _ _ _ hrace
        exact h.leave i r r' res hr h1 h4 hl
    split
    · rename_i hp
      exact h.same i r _ hr rfl id (by rw [hp]; rfl) (by rw [hp]; rfl) (by rw [hp]; simp)
    · rename_i hp
      exact h.same i r _ hr rfl id (by rw [hp]; rfl) (by rw [hp]; rfl) (by rw [hp]; simp)
    · rename_i hp
      exact hrace (by rw [hp]; rfl) (by rw [hp]; rfl) (by rw [hp]; nofun)
    · rename_i hp
      exact hrace (by rw [hp]; rfl) (by rw [hp]; rfl) (by rw [hp]; nofun)
    · exact h

theorem Inv.command {w : Node I O C E} (h : Inv k w) : Inv k (w.step k .command) := by
  unfold Node.step
  simp only
  split
  · exact h
  · rename_i i s rest hc
    obtain ⟨r, hr, hs, hph⟩ := h.sent (i, s) (by rw [hc]; exact List.mem_cons_self ..)
    simp only at hr hs
    have hmem : r ∈ w.runs := List.mem_of_getElem? hr
    have hlt := (List.getElem?_eq_some_iff.1 hr).1
    have hset : w.runs.modify i Run.cleared = w.runs.set i r.cleared := by
      rcases modify_eq (w := w) (i := i) Run.cleared with ⟨e, _⟩ | ⟨r', hr', e⟩
      · rw [hr] at e; cases e
      · rw [hr] at hr'; cases hr'; exact e
    rw [hset]
    have hcl : r.cleared.session = r.session ∧ r.cleared.phase.live = false ∧
        r.phase.live = false ∧ r.cleared.phase.leaving = false ∧
        (r.cleared.phase = .dropped ↔ r.phase = .dropped) ∧
        (PassedOn k r → PassedOn k r.cleared) := by
      unfold Run.cleared
      rcases hph with hph | hph
      · cases hp : r.phase <;> rw [hp] at hph <;> first | cases hph | skip
        simp [Phase.live, Phase.leaving]
        exact fun h => h
      · rw [hph]
        simp [Phase.live, Phase.leaving, hph]
    obtain ⟨c1, c2, c3, c4, c5, c6⟩ := hcl
    have hcnt : ∀ s', (w.runs.set i r.cleared).countP
        (fun r => decide (r.session = s') && r.phase.live) = cnt w s' := by
      intro s'
      have := countP_set' (fun r => decide (r.session = s') && r.phase.live) w.runs i r.cleared r hr
      simp only [c2, c3, Bool.and_false, Bool.false_eq_true, if_false] at this
      exact this
    have hpend : ∀ s', pend w s' = (if s' = s then 1 else 0) +
        rest.countP fun x => decide (x.2 = s') := by
      intro s'
      unfold pend
      rw [hc, List.countP_cons]
      simp only [decide_eq_true_eq, @eq_comm _ s]
      omega
    constructor
    · intro x hx
      rcases List.mem_or_eq_of_mem_set hx with hx | hx
      · exact h.passed x hx
      · subst hx; exact c6 (h.passed r hmem)
    · intro s' he
      have h1 := h.count s' he
      have h2 := h.one s'
      have h3 := hpend s'
      show (w.runs.set i r.cleared).countP (fun r => decide (r.session = s') && r.phase.live) +
        rest.countP (fun x => decide (x.2 = s')) = if s' = s then 0 else w.active s'
      rw [hcnt]
      split
      · rename_i e; rw [if_pos e] at h3; omega
      · rename_i e; rw [if_neg e] at h3; omega
    · intro s'
      simp only
      split
      · exact Nat.zero_le _
      · exact h.one s'
    · intro s' he x hx hxs
      rcases List.mem_or_eq_of_mem_set hx with hx | hx
      · exact h.over s' he x hx hxs
      · subst hx; exact c5.2 (h.over s' he r hmem (c1 ▸ hxs))
    · intro x hx hxd
      rcases List.mem_or_eq_of_mem_set hx with hx | hx
      · exact h.gone x hx hxd
      · subst hx; rw [c1]; exact h.gone r hmem (c5.1 hxd)
    · intro x hx
      obtain ⟨y, h1, h2, h3⟩ := h.sent x (by rw [hc]; exact List.mem_cons_of_mem _ hx)
      by_cases hi : i = x.1
      · subst hi
        rw [hr] at h1
        cases h1
        refine ⟨r.cleared, List.getElem?_set_self hlt, c1.trans h2, .inr (c5.2 ?_)⟩
        cases he : w.ended r.session with
        | true => exact h.over _ he r hmem rfl
        | false =>
          have h4 := h.count _ he
          have h5 := h.one r.session
          have h6 := hpend r.session
          rw [if_pos hs] at h6
          have h7 : 0 < rest.countP fun x => decide (x.2 = r.session) :=
            List.countP_pos_iff.2 ⟨x, hx, by simp [h2]⟩
          omega
      · exact ⟨y, by rw [List.getElem?_set_ne hi]; exact h1, h2, h3⟩
    · intro j x hj hx
      simp only at hj
      by_cases hi : i = j
      · subst hi
        rw [List.getElem?_set_self hlt] at hj
        cases hj
        rw [c4] at hx
        cases hx
      · rw [List.getElem?_set_ne hi] at hj
        have := h.wait j x hj hx
        rw [hc] at this
        simp only [List.mem_cons, Prod.mk.injEq] at this
        rcases this with ⟨h1, _⟩ | h1
        · exact absurd h1.symm hi
        · exact h1

theorem Inv.cleanup {w : Node I O C E} (h : Inv k w) (s : Nat) : Inv k (w.step k (.cleanup s)) := by
  unfold Node.step
  simp only
  have hget : ∀ (j : Nat) x, (w.runs.map fun r : Run I O C E => if r.session = s then
      { r with phase := .dropped } else r)[j]? = some x → ∃ r, w.runs[j]? = some r ∧
      x = if r.session = s then { r with phase := .dropped } else r := by
    intro j x hj
    rw [List.getElem?_map] at hj
    cases hr : w.runs[j]? with
    | none => rw [hr] at hj; cases hj
    | some r => rw [hr] at hj; cases hj; exact ⟨r, rfl, rfl⟩
  constructor
  · intro x hx
    obtain ⟨r, hr, rfl⟩ := List.mem_map.1 hx
    split
    · exact h.passed r hr
    · exact h.passed r hr
  · intro s' he
    simp only at he ⊢
    by_cases hs : s' = s
    · rw [if_pos hs] at he; cases he
    · rw [if_neg hs] at he ⊢
      rw [← h.count s' he]
      unfold cnt pend
      simp only [List.countP_map]
      congr 1
      apply List.countP_congr
      intro r _
      simp only [Function.comp]
      split
      · rename_i e
        simp [e, live_dropped, Ne.symm hs]
      · rfl
  · intro s'
    simp only
    split
    · exact Nat.zero_le _
    · exact h.one s'
  · intro s' he x hx hxs
    obtain ⟨r, hr, rfl⟩ := List.mem_map.1 hx
    split
    · rfl
    · rename_i hn
      rw [if_neg hn] at hxs
      simp only at he
      rw [if_neg (by rw [← hxs]; exact hn)] at he
      exact h.over s' he r hr hxs
  · intro x hx hxd
    obtain ⟨r, hr, rfl⟩ := List.mem_map.1 hx
    by_cases hn : r.session = s
    · simp [hn]
    · rw [if_neg hn] at hxd ⊢
      simp only
      rw [if_neg hn]
      exact h.gone r hr hxd
  · intro x hx
    obtain ⟨y, h1, h2, h3⟩ := h.sent x hx
    refine ⟨if y.session = s then { y with phase := .dropped } else y, ?_, ?_, ?_⟩
    · simp only [List.getElem?_map, h1, Option.map_some]
    · split
      · exact h2
      · exact h2
    · split
      · exact .inr rfl
      · exact h3
  · intro j x hj hx
    obtain ⟨r, hr, rfl⟩ := hget j x hj
    by_cases hn : r.session = s
    · rw [if_pos hn] at hx; cases hx
    · rw [if_neg hn] at hx ⊢
      exact h.wait j r hr hx

theorem qstep_frame (r : Run I O C E) (v : QEv I C E) (hv : ∀ b, v ≠ .poll b) :
    (r.qstep k v).session = r.session ∧ (PassedOn k r → PassedOn k (r.qstep k v)) ∧
      (r.qstep k v).phase.live = r.phase.live ∧ (r.qstep k v).phase.leaving = r.phase.leaving ∧
      ((r.qstep k v).phase = .dropped ↔ r.phase = .dropped) := by
  cases v with
  | opened res =>
    simp only [Run.qstep]
    split
    · rename_i hp
      rw [hp]
      exact ⟨rfl, id, rfl, rfl, by simp⟩
    · exact ⟨rfl, id, rfl, rfl, .rfl⟩
  | item x =>
    simp only [Run.qstep]
    split
    · exact ⟨rfl, id, rfl, rfl, .rfl⟩
    · refine ⟨rfl, ?_, rfl, rfl, .rfl⟩
      rintro ⟨t, h1, h2⟩
      exact ⟨t, by simp [h1], h2⟩
  | close => exact ⟨rfl, id, rfl, rfl, .rfl⟩
  | cancel c => exact ⟨rfl, id, rfl, rfl, .rfl⟩
  | poll b => exact absurd rfl (hv b)

theorem Inv.step {w : Node I O C E} (h : Inv k w) (v : Ev I C E) : Inv k (w.step k v) := by
  cases v with
  | trigger s => exact h.trigger s
  | opened i r => exact h.modify i _ fun r => qstep_frame r _ (by simp)
  | item i x => exact h.modify i _ fun r => qstep_frame r _ (by simp)
  | close i => exact h.modify i _ fun r => qstep_frame r _ (by simp)
  | cancel i c => exact h.modify i _ fun r => qstep_frame r _ (by simp)
  | poll i b => exact h.poll i b
  | command => exact h.command
  | cleanup s => exact h.cleanup s

theorem Inv.run {w : Node I O C E} (h : Inv k w) (vs : List (Ev I C E)) : Inv k (w.run k vs) := by
  induction vs generalizing w with
  | nil => exact h
  | cons v vs ih => exact ih (h.step v)

/-! ### The querier -/

theorem loop_some (hk : k.onClosed.isSome) (r : Run I O C E) :
    ∃ r' o, r.loop k (r.inbox.length + 1) = some (r', o) := by
  obtain ⟨c, hc⟩ := Option.isSome_iff_exists.1 hk
  have := loop_enough (k := k) r _ (Nat.lt_succ_self _)
  cases ho : r.closed with
  | false => exact ⟨_, _, this.1 ho⟩
  | true => exact ⟨_, _, this.2 ho c hc⟩

theorem work_some (hk : k.onClosed.isSome) (r : Run I O C E) :
    ∃ r' o, r.work k = some (r', o) := by
  unfold Run.work
  split
  · exact ⟨_, _, rfl⟩
  · exact ⟨_, _, rfl⟩
  · exact loop_some hk { r with phase := .receiving }
  · exact loop_some hk r
  · exact ⟨_, _, rfl⟩

structure QInv (k : Kind I O C E) (us : List (QEv I C E)) (r : Run I O C E) : Prop where
  passed : PassedOn k r
  cancels : ∀ c ∈ r.signals, QEv.cancel c ∈ us
  closes : r.closed = true → QEv.close ∈ us
  opens : ∀ e, r.phase = .opening (some (.error e)) → QEv.opened (.error e) ∈ us
  justified : ∀ res, r.phase = .done res →
    (∃ e, res = .error e ∧ QEv.opened (.error e) ∈ us) ∨
    (∃ c, res = .ok c ∧ QEv.cancel c ∈ us) ∨
    (∃ c, res = .ok c ∧ k.onClosed = some c ∧ r.closed = true ∧ r.outs = r.arrived.map k.item)

theorem QInv.mono {us : List (QEv I C E)} {r : Run I O C E} (h : QInv k us r) (v : QEv I C E) :
    QInv k (us ++ [v]) r := by
  constructor
  · exact h.passed
  · exact fun c hc => List.mem_append_left _ (h.cancels c hc)
  · exact fun hc => List.mem_append_left _ (h.closes hc)
  · exact fun e he => List.mem_append_left _ (h.opens e he)
  · intro res hr
    rcases h.justified res hr with ⟨e, h1, h2⟩ | ⟨c, h1, h2⟩ | h1
    · exact .inl ⟨e, h1, List.mem_append_left _ h2⟩
    · exact .inr (.inl ⟨c, h1, List.mem_append_left _ h2⟩)
    · exact .inr (.inr h1)

/-- How a poll of the work can end. -/
theorem loop_result (r : Run I O C E) (hk : k.onClosed.isSome) (hin : PassedOn k r)
    (r' : Run I O C E) (o : Option (Result C E))
    (h : r.loop k (r.inbox.length + 1) = some (r', o)) (res : Result C E) (ho : o = some res) :
    ∃ c, res = .ok c ∧ k.onClosed = some c ∧ r'.closed = true ∧
      r'.outs = r'.arrived.map k.item := by
  obtain ⟨c, hc⟩ := Option.isSome_iff_exists.1 hk
  obtain ⟨t, h1, h2⟩ := hin
  have := loop_enough (k := k) r _ (Nat.lt_succ_self _)
  cases hcl : r.closed with
  | false =>
    rw [this.1 hcl] at h
    cases h
    cases ho
  | true =>
    rw [this.2 hcl c hc] at h
    cases h
    cases ho
    exact ⟨c, rfl, hc, hcl, by simp [h1, h2]⟩

theorem QInv.poll (hk : k.onClosed.isSome) {us : List (QEv I C E)} {r : Run I O C E}
    (h : QInv k us r) (b : Bool) : QInv k us (r.qstep k (.poll b)) := by
  have key : ∀ r' o, r.race k b = some (r', o) → (r.phase = .receiving ∨ ∃ o, r.phase = .opening o) →
      QInv k us (match o with
        | none => r'
        | some res => { r' with phase := .done res }) := by
    intro r' o hr hp
    obtain ⟨f1, f2, f3, f4, f5⟩ := race_frame _ _ _ _ hr
    have hlive : r'.phase.live = true := f5 (by rcases hp with hp | ⟨_, hp⟩ <;> rw [hp] <;> rfl)
    -- what the race gives
    have hres : ∀ res, o = some res →
        (∃ e, res = .error e ∧ QEv.opened (.error e) ∈ us) ∨
        (∃ c, res = .ok c ∧ QEv.cancel c ∈ us) ∨
        (∃ c, res = .ok c ∧ k.onClosed = some c ∧ r'.closed = true ∧
          r'.outs = r'.arrived.map k.item) := by
      intro res ho
      unfold Run.race at hr
      split at hr
      · rename_i hs
        cases hr
        cases ho
        exact .inr (.inl ⟨_, rfl, h.cancels _ (by rw [hs]; exact List.mem_cons_self ..)⟩)
      · split at hr
        · cases hr
        · rename_i hw
          cases hr
          cases ho
          unfold Run.work at hw
          split at hw
          · cases hw
          · rename_i e hp
            cases hw
            exact .inl ⟨e, rfl, h.opens e hp⟩
          · exact .inr (.inr (loop_result { r with phase := .receiving } hk h.passed _ _ hw _ rfl))
          · exact .inr (.inr (loop_result r hk h.passed _ _ hw _ rfl))
          · cases hw
        · cases hr
          cases hs : r.signals with
          | nil => rw [hs] at ho; cases ho
          | cons c cs =>
            rw [hs] at ho
            cases ho
            exact .inr (.inl ⟨c, rfl, h.cancels c (by rw [hs]; exact List.mem_cons_self ..)⟩)
    cases o with
    | none =>
      refine ⟨f4 h.passed, by rw [f2]; exact h.cancels, by rw [f3]; exact h.closes, ?_, ?_⟩
      · intro e he
        unfold Run.race at hr
        split at hr
        · cases hr
        · split at hr
          · cases hr
          · cases hr
          · rename_i hw
            simp only [Option.some.injEq, Prod.mk.injEq] at hr
            obtain ⟨rfl, _⟩ := hr
            unfold Run.work at hw
            split at hw
            · cases hw; exact h.opens e he
            · cases hw
            · have := (loop_frame _ _ _ _ hw).2.1
              rw [this] at he
              cases he
            · have := (loop_frame _ _ _ _ hw).2.1
              rw [this] at he
              exact h.opens e he
            · cases hw; exact h.opens e he
      · intro res hr'
        rw [hr'] at hlive
        cases hlive
    | some res =>
      refine ⟨f4 h.passed, by simp only [f2]; exact h.cancels, by simp only [f3]; exact h.closes,
        nofun, ?_⟩
      intro res' hr'
      cases hr'
      exact hres res rfl
  have some_race : ∃ r' o, r.race k b = some (r', o) := by
    unfold Run.race
    split
    · exact ⟨_, _, rfl⟩
    · rcases work_some hk r with ⟨r', o, hw⟩
      rw [hw]
      cases o <;> exact ⟨_, _, rfl⟩
  obtain ⟨r', o, hr⟩ := some_race
  simp only [Run.qstep]
  split
  · rename_i hp
    have := key r' o hr (.inr ⟨_, hp⟩)
    rw [hr]
    cases o <;> exact this
  · rename_i hp
    have := key r' o hr (.inl hp)
    rw [hr]
    cases o <;> exact this
  · exact h

theorem QInv.step (hk : k.onClosed.isSome) {us : List (QEv I C E)} {r : Run I O C E}
    (h : QInv k us r) (v : QEv I C E) : QInv k (us ++ [v]) (r.qstep k v) := by
  have hm := h.mono v
  cases v with
  | opened res =>
    simp only [Run.qstep]
    split
    · refine ⟨hm.passed, hm.cancels, hm.closes, ?_, nofun⟩
      intro e he
      cases he
      simp
    · exact hm
  | item x =>
    simp only [Run.qstep]
    split
    · exact hm
    · rename_i hc
      refine ⟨?_, hm.cancels, hm.closes, hm.opens, ?_⟩
      · obtain ⟨t, h1, h2⟩ := hm.passed
        exact ⟨t, by simp [h1], h2⟩
      · intro res hr
        rcases hm.justified res hr with h1 | h1 | ⟨c, _, _, h3, _⟩
        · exact .inl h1
        · exact .inr (.inl h1)
        · exact absurd h3 hc
  | close =>
    refine ⟨hm.passed, hm.cancels, fun _ => by simp, hm.opens, ?_⟩
    intro res hr
    rcases hm.justified res hr with h1 | h1 | ⟨c, h1, h2, _, h4⟩
    · exact .inl h1
    · exact .inr (.inl h1)
    · exact .inr (.inr ⟨c, h1, h2, rfl, h4⟩)
  | cancel c =>
    refine ⟨hm.passed, ?_, hm.closes, hm.opens, hm.justified⟩
    intro c' hc'
    simp only [Run.qstep, List.mem_append, List.mem_singleton] at hc'
    rcases hc' with hc' | hc'
    · exact hm.cancels c' hc'
    · subst hc'; simp
  | poll b => exact hm.poll hk b

theorem QInv.run (hk : k.onClosed.isSome) (vs : List (QEv I C E)) :
    QInv k vs (Run.qrun k begin vs) := by
  have : ∀ (vs us : List (QEv I C E)) (r : Run I O C E), QInv k us r →
      QInv k (us ++ vs) (r.qrun k vs) := by
    intro vs
    induction vs with
    | nil => intro us r h; rw [List.append_nil]; exact h
    | cons v vs ih =>
      intro us r h
      have := ih _ _ (h.step hk v)
      rw [List.append_assoc] at this
      exact this
  exact this vs [] begin ⟨⟨[], rfl, rfl⟩, nofun, nofun, nofun, nofun⟩

end Verif.Zenoh.Nodes
