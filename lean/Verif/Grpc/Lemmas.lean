import Verif.Grpc.Spec

/-! Lemmas for C113. -/
set_option linter.unusedSectionVars false
set_option linter.unusedSimpArgs false

namespace Verif.Grpc

variable {M C E : Type} {cfg : Config}

structure Inv (cfg : Config) (us : List (Ev M C E)) (s : Call M C E) : Prop where
  out : ∃ taken, s.arrived = taken ++ s.inbox ∧
    (s.outs.map .ok = taken ∨ (Over s ∧ ∃ e, taken = s.outs.map .ok ++ [.error e]))
  one : cfg.streaming = false → s.outs.length ≤ 1 ∧ (s.phase = .receiving → s.outs = [])
  few : s.phase ≠ .receiving → ¬ Over s → s.outs = []
  msgs : ∀ m ∈ s.inbox, Ev.message m ∈ us
  conn : ∀ r, s.connected = some r → Ev.connect r ∈ us
  rdy1 : ∀ r, s.ready1 = some r → Ev.ready1 r ∈ us
  rdy2 : ∀ r, s.ready2 = some r → Ev.ready2 r ∈ us
  resp : ∀ r, s.response = some r → Ev.respond r ∈ us
  clos : s.ended = true → Ev.close ∈ us
  dead : s.late = true → Ev.deadline ∈ us
  canc : ∀ c ∈ s.signals, Ev.cancel c ∈ us
  just : ∀ r, s.phase = .done r → match r with
    | .ok () => (s.arrived = s.outs.map .ok ∧ s.ended = true) ∨
        (cfg.streaming = false ∧ s.outs.length = 1)
    | r => Justified cfg s us r

theorem just_mono {us : List (Ev M C E)} {s s' : Call M C E} {v : Ev M C E}
    {w : Why C E} (h : Justified cfg s us (.error w)) : Justified cfg s' (us ++ [v]) (.error w) := by
  cases w with
  | failed e => simp only [Justified, List.mem_append] at h ⊢; grind
  | timedOut => simp only [Justified, List.mem_append] at h ⊢; grind
  | cancelled c => simp only [Justified, List.mem_append] at h ⊢; grind

/-- What a turn may lead to. -/
def Good (cfg : Config) (us : List (Ev M C E)) (s : Call M C E) : Turn (Call M C E) C E → Prop
  | .again s' => Inv cfg us s' ∧ ¬ Over s' ∧ s'.inbox.length ≤ s.inbox.length
  | .wait s' => s' = s ∧ Waiting cfg s
  | .over s' r => Inv cfg us { s' with phase := .done r }

/-- The call fails. -/
theorem Inv.fail {us : List (Ev M C E)} {s : Call M C E} (h : Inv cfg us s) (ho : ¬ Over s)
    (w : Why C E) (hw : Justified cfg s us (.error w)) :
    Inv cfg us { s with phase := .done (.error w) } := by
  obtain ⟨t, h1, h2⟩ := h.out
  have h2 : s.outs.map .ok = t := by
    rcases h2 with h2 | h2
    · exact h2
    · exact absurd h2.1 ho
  refine ⟨⟨t, h1, .inl h2⟩, fun hs => ⟨(h.one hs).1, nofun⟩, fun _ hn => absurd ⟨_, rfl⟩ hn, h.msgs,
    h.conn, h.rdy1, h.rdy2, h.resp, h.clos, h.dead, h.canc, ?_⟩
  intro r hr
  cases hr
  cases w <;> exact hw

/-- The call goes on to the next phase before the loop. -/
theorem Inv.next {us : List (Ev M C E)} {s : Call M C E} (h : Inv cfg us s) (ho : ¬ Over s)
    (hr : s.phase ≠ .receiving) (p : Phase C E) (l c : Bool) (hl : l = true → s.late = true)
    (hp : ∀ r, p ≠ .done r) :
    Inv cfg us { s with phase := p, late := l, canceller := c } ∧
      ¬ Over { s with phase := p, late := l, canceller := c } ∧
      s.inbox.length ≤ s.inbox.length := by
  have hno : ∀ c, ¬ Over { s with phase := p, late := l, canceller := c } :=
    fun _ ⟨r, hr⟩ => hp r hr
  refine ⟨?_, hno c, Nat.le_refl _⟩
  obtain ⟨t, h1, h2⟩ := h.out
  have hemp := h.few hr ho
  have h2 : s.outs.map .ok = t := by
    rcases h2 with h2 | h2
    · exact h2
    · exact absurd h2.1 ho
  refine ⟨⟨t, h1, .inl h2⟩, fun hs => ⟨(h.one hs).1, fun _ => hemp⟩, fun _ _ => hemp, h.msgs,
    h.conn, h.rdy1, h.rdy2, h.resp, h.clos, fun hx => h.dead (hl hx), h.canc, ?_⟩
  intro r hr
  exact absurd hr (hp r)

theorem Inv.idle {us : List (Ev M C E)} {s : Call M C E} (h : Inv cfg us s) (ho : ¬ Over s)
    (hw : s.signals = [] → (cfg.timeout = true → s.late = false) → Waiting cfg s) :
    Good cfg us s (s.idle cfg) := by
  unfold Call.idle
  split
  · rename_i c cs hs
    exact h.fail ho _ (h.canc c (by rw [hs]; exact List.mem_cons_self ..))
  · rename_i hs
    split
    · rename_i ht
      simp only [Bool.and_eq_true] at ht
      exact h.fail ho _ ⟨ht.1, h.dead ht.2⟩
    · rename_i ht
      refine ⟨rfl, hw hs fun hx => ?_⟩
      cases hl : s.late with
      | false => rfl
      | true => exact absurd (by rw [hx, hl]; rfl) ht

/-- A turn from a call that is not over. -/
theorem Inv.turn {us : List (Ev M C E)} {s : Call M C E} (h : Inv cfg us s) (b : Bool)
    (ho : ¬ Over s) : Good cfg us s (s.turn cfg b) := by
  unfold Call.turn
  split
  · rename_i hp
    split
    · rename_i hc
      exact ⟨rfl, by simp only [Waiting, hp]; exact hc⟩
    · rename_i e hc
      exact h.fail ho _ (.inl (h.conn _ hc))
    · exact h.next ho (by rw [hp]; nofun) .first s.late s.canceller id nofun
  · rename_i hp
    split
    · rename_i hc
      exact ⟨rfl, by simp only [Waiting, hp]; exact hc⟩
    · rename_i e hc
      exact h.fail ho _ (.inr (.inl (h.rdy1 _ hc)))
    · exact h.next ho (by rw [hp]; nofun) .second false s.canceller nofun nofun
  · rename_i hp
    split
    · rename_i hc
      split
      · rename_i ht
        simp only [Bool.and_eq_true] at ht
        exact h.fail ho _ ⟨ht.1, h.dead ht.2⟩
      · rename_i ht
        refine ⟨rfl, ?_⟩
        simp only [Waiting, hp]
        refine ⟨hc, fun hx => ?_⟩
        cases hl : s.late with
        | false => rfl
        | true => exact absurd (by rw [hx, hl]; rfl) ht
    · rename_i e hc
      exact h.fail ho _ (.inr (.inr (.inl (h.rdy2 _ hc))))
    · exact h.next ho (by rw [hp]; nofun) .calling false true nofun nofun
  · rename_i hp
    split
    · rename_i c cs hs
      exact h.fail ho _ (h.canc c (by rw [hs]; exact List.mem_cons_self ..))
    · split
      · rename_i hc
        refine h.idle ho fun h1 h2 => ?_
        simp only [Waiting, hp]
        exact ⟨hc, h1, h2⟩
      · rename_i e hc
        exact h.fail ho _ (.inr (.inr (.inr (.inl (h.resp _ hc)))))
      · exact h.next ho (by rw [hp]; nofun) .receiving false s.canceller nofun nofun
  · rename_i hp
    obtain ⟨t, h1, h2⟩ := h.out
    have h2 : s.outs.map .ok = t := by
      rcases h2 with h2 | h2
      · exact h2
      · exact absurd h2.1 ho
    split
    · rename_i c cs hs
      exact h.fail ho _ (h.canc c (by rw [hs]; exact List.mem_cons_self ..))
    · split
      · rename_i e rest hc
        refine ⟨⟨t ++ [.error e], by simp [h1, hc], .inr ⟨⟨_, rfl⟩, e, by simp [h2]⟩⟩,
          fun hs => ⟨(h.one hs).1, nofun⟩, fun _ hn => absurd ⟨_, rfl⟩ hn,
          fun m hm => h.msgs m (by rw [hc]; exact List.mem_cons_of_mem _ hm),
          h.conn, h.rdy1, h.rdy2, h.resp, h.clos, h.dead, h.canc, ?_⟩
        intro r hr
        cases hr
        exact .inr (.inr (.inr (.inr (h.msgs _ (by rw [hc]; exact List.mem_cons_self ..)))))
      · rename_i m rest hc
        split
        · rename_i hs
          refine ⟨⟨⟨t ++ [.ok m], by simp [h1, hc], .inl (by simp [h2])⟩,
            fun hx => absurd hs (by rw [hx]; decide), fun hx => absurd hp hx,
            fun m hm => h.msgs m (by rw [hc]; exact List.mem_cons_of_mem _ hm),
            h.conn, h.rdy1, h.rdy2, h.resp, h.clos, nofun, h.canc, ?_⟩, ?_, ?_⟩
          · intro r hr
            simp only [hp] at hr
            cases hr
          · rintro ⟨r, hr⟩
            simp only [hp] at hr
            cases hr
          · simp [hc]
        · rename_i hs
          have hs : cfg.streaming = false := by simpa using hs
          have hemp := (h.one hs).2 hp
          refine ⟨⟨t ++ [.ok m], by simp [h1, hc], .inl (by simp [h2])⟩,
            fun _ => ⟨by simp [hemp], nofun⟩, fun _ hn => absurd ⟨_, rfl⟩ hn,
            fun m hm => h.msgs m (by rw [hc]; exact List.mem_cons_of_mem _ hm),
            h.conn, h.rdy1, h.rdy2, h.resp, h.clos, h.dead, h.canc, ?_⟩
          intro r hr
          cases hr
          exact .inr ⟨hs, by simp [hemp]⟩
      · rename_i hc
        split
        · rename_i he
          refine ⟨⟨t, h1, .inl h2⟩, fun hs => ⟨(h.one hs).1, nofun⟩,
            fun _ hn => absurd ⟨_, rfl⟩ hn, h.msgs,
            h.conn, h.rdy1, h.rdy2, h.resp, h.clos, h.dead, h.canc, ?_⟩
          intro r hr
          cases hr
          exact .inl ⟨by simp [h1, hc, h2], he⟩
        · rename_i he
          refine h.idle ho fun h3 h4 => ?_
          simp only [Waiting, hp]
          exact ⟨hc, by simpa using he, h3, h4⟩
  · rename_i r hp
    exact absurd ⟨r, hp⟩ ho

/-- How many turns there can be before a call waits or ends. -/
def rank (s : Call M C E) : Nat :=
  s.inbox.length + match s.phase with
    | .connecting => 4
    | .first => 3
    | .second => 2
    | .calling => 1
    | _ => 0

theorem turn_rank (s s' : Call M C E) (b : Bool) (h : s.turn cfg b = .again s') :
    rank s' < rank s := by
  unfold Call.turn Call.idle at h
  unfold rank
  repeat' split at h
  all_goals first
    | (cases h; done)
    | (simp only [Turn.again.injEq] at h
       subst h
       simp [*]; done)

theorem Inv.loop {us : List (Ev M C E)} (n : Nat) (orders : List Bool) (s : Call M C E)
    (h : Inv cfg us s) (ho : ¬ Over s) (hn : rank s < n) :
    Inv cfg us (s.loop cfg n orders) ∧
      (Over (s.loop cfg n orders) ∨ Waiting cfg (s.loop cfg n orders)) := by
  induction n generalizing orders s with
  | zero => omega
  | succ n ih =>
    have ht := h.turn (orders.headD false) ho
    unfold Call.loop
    split
    · rename_i s' hs
      rw [hs] at ht
      exact ih _ s' ht.1 ht.2.1 (by have := turn_rank _ _ _ hs; omega)
    · rename_i s' hs
      rw [hs] at ht
      obtain ⟨rfl, hw⟩ := ht
      exact ⟨h, .inr hw⟩
    · rename_i s' r hs
      rw [hs] at ht
      exact ⟨ht, .inl ⟨r, rfl⟩⟩

theorem rank_le (s : Call M C E) : rank s < s.inbox.length + 5 := by
  unfold rank
  split <;> omega

theorem Inv.poll {us : List (Ev M C E)} {s : Call M C E} (h : Inv cfg us s)
    (orders : List Bool) : Inv cfg us (s.poll cfg orders) ∧
      (Over (s.poll cfg orders) ∨ Waiting cfg (s.poll cfg orders)) := by
  by_cases ho : Over s
  · have : s.poll cfg orders = s := by
      obtain ⟨r, hr⟩ := ho
      unfold Call.poll
      rw [Call.loop]
      simp only [Call.turn, hr]
      cases s
      simp only at hr
      subst hr
      rfl
    rw [this]
    exact ⟨h, .inl ho⟩
  · exact h.loop _ orders s ho (rank_le s)

theorem Inv.mono {us : List (Ev M C E)} {s : Call M C E} (h : Inv cfg us s) (v : Ev M C E) :
    Inv cfg (us ++ [v]) s := by
  have hm : ∀ {x : Ev M C E}, x ∈ us → x ∈ us ++ [v] := fun h => List.mem_append_left _ h
  refine ⟨h.out, h.one, h.few, fun m x => hm (h.msgs m x), fun m x => hm (h.conn m x),
    fun m x => hm (h.rdy1 m x), fun m x => hm (h.rdy2 m x), fun m x => hm (h.resp m x),
    fun x => hm (h.clos x), fun x => hm (h.dead x), fun m x => hm (h.canc m x), ?_⟩
  intro r hr
  have := h.just r hr
  match r, this with
  | .ok (), this => exact this
  | .error w, this => exact just_mono this

theorem orElse_mem {α : Type} {a : Option α} {x r : α} {P : α → Prop}
    (h : (a <|> some x) = some r) (h1 : ∀ r, a = some r → P r) (h2 : P x) : P r := by
  cases a with
  | none => cases h; exact h2
  | some y => exact h1 r h

theorem Inv.step {us : List (Ev M C E)} {s : Call M C E} (h : Inv cfg us s) (v : Ev M C E) :
    Inv cfg (us ++ [v]) (s.step cfg v) := by
  have hm := h.mono v
  have hv : v ∈ us ++ [v] := by simp
  cases v with
  | connect r =>
    exact ⟨hm.out, hm.one, hm.few, hm.msgs, fun r' h' => orElse_mem
      (P := fun x => Ev.connect x ∈ us ++ [Ev.connect r]) h' hm.conn hv,
      hm.rdy1, hm.rdy2,
      hm.resp, hm.clos, hm.dead, hm.canc, hm.just⟩
  | ready1 r =>
    exact ⟨hm.out, hm.one, hm.few, hm.msgs, hm.conn, fun r' h' => orElse_mem
      (P := fun x => Ev.ready1 x ∈ us ++ [Ev.ready1 r]) h' hm.rdy1 hv,
      hm.rdy2,
      hm.resp, hm.clos, hm.dead, hm.canc, hm.just⟩
  | ready2 r =>
    exact ⟨hm.out, hm.one, hm.few, hm.msgs, hm.conn, hm.rdy1, fun r' h' => orElse_mem
      (P := fun x => Ev.ready2 x ∈ us ++ [Ev.ready2 r]) h' hm.rdy2 hv,

      hm.resp, hm.clos, hm.dead, hm.canc, hm.just⟩
  | respond r =>
    exact ⟨hm.out, hm.one, hm.few, hm.msgs, hm.conn, hm.rdy1, hm.rdy2,
      fun r' h' => orElse_mem
      (P := fun x => Ev.respond x ∈ us ++ [Ev.respond r]) h' hm.resp hv,
      hm.clos, hm.dead, hm.canc, hm.just⟩
  | message m =>
    simp only [Call.step]
    split
    · exact hm
    · rename_i he
      refine ⟨?_, hm.one, hm.few, ?_, hm.conn, hm.rdy1, hm.rdy2, hm.resp, hm.clos, hm.dead, hm.canc,
        ?_⟩
      · obtain ⟨t, h1, h2⟩ := hm.out
        exact ⟨t, by simp [h1], h2⟩
      · intro x hx
        simp only [List.mem_append, List.mem_singleton] at hx
        rcases hx with hx | hx
        · exact hm.msgs x hx
        · subst hx; exact hv
      · intro r hr
        have := hm.just r hr
        match r, this with
        | .ok (), .inl ⟨_, h2⟩ => exact absurd h2 he
        | .ok (), .inr h2 => exact .inr h2
        | .error (.failed e), this => exact this
        | .error .timedOut, this => exact this
        | .error (.cancelled c), this => exact this
  | close =>
    refine ⟨hm.out, hm.one, hm.few, hm.msgs, hm.conn, hm.rdy1, hm.rdy2, hm.resp, fun _ => hv,
      hm.dead, hm.canc, ?_⟩
    intro r hr
    have := hm.just r hr
    match r, this with
    | .ok (), .inl ⟨h1, _⟩ => exact .inl ⟨h1, rfl⟩
    | .ok (), .inr h2 => exact .inr h2
    | .error (.failed e), this => exact this
    | .error .timedOut, this => exact this
    | .error (.cancelled c), this => exact this
  | deadline =>
    have : Inv cfg (us ++ [.deadline]) { s with late := true } :=
      ⟨hm.out, hm.one, hm.few, hm.msgs, hm.conn, hm.rdy1, hm.rdy2, hm.resp, hm.clos, fun _ => hv,
        hm.canc, hm.just⟩
    simp only [Call.step]
    split <;> first | exact this | exact hm
  | cancel c =>
    simp only [Call.step]
    split
    · refine ⟨hm.out, hm.one, hm.few, hm.msgs, hm.conn, hm.rdy1, hm.rdy2, hm.resp, hm.clos, hm.dead,
        ?_, hm.just⟩
      intro x hx
      simp only [List.mem_append, List.mem_singleton] at hx
      rcases hx with hx | hx
      · exact hm.canc x hx
      · subst hx; exact hv
    · exact hm
  | poll orders => exact (hm.poll orders).1

theorem Inv.run (vs : List (Ev M C E)) : Inv cfg vs (Call.run cfg {} vs) := by
  have : ∀ (vs us : List (Ev M C E)) (s : Call M C E), Inv cfg us s →
      Inv cfg (us ++ vs) (s.run cfg vs) := by
    intro vs
    induction vs with
    | nil => intro us s h; rw [List.append_nil]; exact h
    | cons v vs ih =>
      intro us s h
      have := ih _ _ (h.step v)
      rw [List.append_assoc] at this
      exact this
  refine this vs [] {} ⟨⟨[], rfl, .inl rfl⟩, fun _ => ⟨Nat.zero_le _, fun _ => rfl⟩,
    fun _ _ => rfl, nofun, nofun, nofun, nofun, nofun, nofun, nofun, nofun, nofun⟩

end Verif.Grpc
