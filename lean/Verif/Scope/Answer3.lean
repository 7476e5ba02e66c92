import Verif.Scope.Answer2

/-
The end of cleanup workflows, the request of the parent itself, and all events.
-/
set_option linter.unusedSimpArgs false
set_option linter.unusedVariables false
namespace Verif.Scope

variable {α κ : Type}

theorem deduct_form (cfg : Cfg) (w : Ent) (k : Option κ) (st : State α κ) :
    (∀ a ∈ st.awaiting, ∀ l, a.flows = some l → w ∉ l) ∧ deduct cfg w k st = st ∨
    ∃ l1 a l2 l, st.awaiting = l1 ++ a :: l2 ∧ a.flows = some l ∧ w ∈ l ∧
      let st1 : State α κ := { st with awaiting :=
        l1 ++ { a with status := a.status.during k, flows := some (l.filter (· ≠ w)) } :: l2 }
      deduct cfg w k st =
        if l.filter (· ≠ w) = [] then finalize cfg l1.length st1 else st1 := by
  unfold deduct
  cases hf : st.awaiting.findIdx? (fun a => a.flows.any (fun l => l.contains w)) with
  | none =>
    refine Or.inl ⟨?_, rfl⟩
    intro a ha l hl hw
    have := List.findIdx?_eq_none_iff.mp hf a ha
    rw [hl] at this
    simp [hw] at this
  | some i =>
    obtain ⟨l1, a, l2, h1, h2, h3, h4⟩ := findIdx_get _ _ _ hf
    cases hfl : a.flows with
    | none => rw [hfl] at h4; simp at h4
    | some l =>
      rw [hfl] at h4
      have hw : w ∈ l := by simpa using h4
      refine Or.inr ⟨l1, a, l2, l, h1, hfl, hw, ?_⟩
      have hget : st.awaiting[i]? = some a := by rw [h1, ← h2]; exact get_mid _ _ _
      have hset : ∀ b, st.awaiting.set i b = l1 ++ b :: l2 := by
        intro b
        rw [h1, ← h2]; simp
      dsimp only
      rw [hget]
      dsimp only
      rw [hset, hfl, h2]
      simp only [Option.getD_some, List.isEmpty_iff]

/-- A cleanup workflow comes to its end. -/
theorem flowDone_asked (cfg : Cfg) {c : Cleanup} {ss : List Ent} (hnd : ss.Nodup) (st : State α κ)
    (h : Asked cfg c ss st) (w : Ent) (k : Option κ) :
    Asked cfg c ss (deduct cfg w k { st with running := st.running.filter (fun r => r.1 ≠ w) }) := by
  have hs := h.side
  have side1 : Side c ss { st with running := st.running.filter (fun r => r.1 ≠ w) } :=
    ⟨hs.1, hs.2, hs.3, hs.4, hs.5, hs.6, hs.7, fun r hr => hs.8 r (List.mem_filter.mp hr).1,
      fun a ha l hl w hw s h' hr => hs.9 a ha l hl w hw s h' (List.mem_filter.mp hr).1⟩
  -- an entry with fewer cleanup workflows
  have less : ∀ (st : State α κ) l1 a l2 l, Side c ss st → st.awaiting = l1 ++ a :: l2 → a.flows = some l →
      Side c ss { st with awaiting :=
        l1 ++ { a with status := a.status.during k, flows := some (l.filter (· ≠ w)) } :: l2 } := by
    intro st l1 a l2 l hs hl hfl
    have ham : a ∈ st.awaiting := by rw [hl]; simp
    have hmem : ∀ b ∈ l1 ++ { a with status := a.status.during k, flows := some (l.filter (· ≠ w)) } :: l2,
        b ∈ st.awaiting ∨ b = { a with status := a.status.during k, flows := some (l.filter (· ≠ w)) } := by
      intro b hb
      rw [hl]
      simp only [List.mem_append, List.mem_cons] at hb ⊢
      rcases hb with hb | rfl | hb
      · exact Or.inl (Or.inl hb)
      · exact Or.inr rfl
      · exact Or.inl (Or.inr (Or.inr hb))
    refine ⟨hs.1, hs.2, hs.3, hs.4, hs.5, ?_, ?_, hs.8, ?_⟩
    · intro b hb hm
      rcases hmem b hb with hb | rfl
      · exact hs.ent b hb hm
      · obtain ⟨e1, e2, e3, e4⟩ := hs.ent a ham hm
        refine ⟨e1, e2, e3, ?_⟩
        show a.status.during k = _
        rw [e4]; cases k <;> rfl
    · intro b hb l' hl' w' hw'
      rcases hmem b hb with hb | rfl
      · exact hs.flowB b hb l' hl' w' hw'
      · cases hl'
        exact hs.flowB a ham l hfl w' (List.mem_filter.mp hw').1
    · intro b hb l' hl' w' hw'
      rcases hmem b hb with hb | rfl
      · exact hs.apart b hb l' hl' w' hw'
      · cases hl'
        exact hs.apart a ham l hfl w' (List.mem_filter.mp hw').1
  -- when it is no cleanup workflow of the sessions
  have free : (∀ s ∈ ss, (w, s) ∉ st.running) →
      Keep c ss st { st with running := st.running.filter (fun r => r.1 ≠ w) } := by
    intro hw
    refine ⟨side1, { Same.refl c ss st with run := ?_ }⟩
    intro s hs w'
    show (w', s) ∈ st.running.filter _ ↔ _
    rw [List.mem_filter]
    constructor
    · exact fun q => q.1
    · intro q
      refine ⟨q, ?_⟩
      simp only [ne_eq, decide_not, Bool.not_eq_true', decide_eq_false_iff_not]
      rintro rfl; exact hw s hs q
  -- the entry whose cleanup workflow it is
  have owner : ∀ s ∈ ss, (w, s) ∈ st.running → ∃ a ∈ st.awaiting.filter (mine c ss), a.sid = s ∧
      ∃ l, a.flows = some l ∧ w ∈ l := by
    intro s hs' hw
    rcases h.phase with ⟨ho, _⟩ | ho
    · have hs2 := hs'
      rw [← ho.sids] at hs2
      obtain ⟨a, ha, e⟩ := List.mem_map.mp hs2
      cases hf : a.flows with
      | none => exact absurd (by rw [e]; exact hw) (ho.idle a ha hf w)
      | some l => exact ⟨a, ha, e, l, hf, ((ho.run a ha l hf).1 w).mp (by rw [e]; exact hw)⟩
    · exact absurd hw (ho.run s hs' w)
  rcases deduct_form cfg w k { st with running := st.running.filter (fun r => r.1 ≠ w) } with
    ⟨hno, e⟩ | ⟨l1, a, l2, l, hl, hfl, hwl, e⟩
  · rw [e]
    refine h.keep (free ?_)
    intro s hs' hw
    obtain ⟨a, ha, _, l, hl, hwl⟩ := owner s hs' hw
    exact hno a (List.mem_filter.mp ha).1 l hl hwl
  · dsimp only at hl e
    rw [e]
    have ham : a ∈ st.awaiting := by rw [hl]; simp
    cases hma : mine c ss a with
    | false =>
      have k1 := free (by
        intro s hs' hw
        have := hs.apart a ham l hfl w hwl s hs' hw
        simp only [mine, Bool.or_eq_false_iff] at hma
        rw [this] at hs'
        have := hma.1.1
        simp [hs'] at this)
      have h1 := h.keep k1
      generalize hst1 : ({ st with running := st.running.filter (fun r => r.1 ≠ w) } : State α κ) = st1 at h1
      have hl1 : st1.awaiting = l1 ++ a :: l2 := by rw [← hst1]; exact hl
      have hma' : mine c ss { a with status := a.status.during k, flows := some (l.filter (· ≠ w)) } = false := hma
      have k2 : Keep c ss st1 { st1 with awaiting :=
          l1 ++ { a with status := a.status.during k, flows := some (l.filter (· ≠ w)) } :: l2 } := by
        refine ⟨less st1 l1 a l2 l h1.side hl1 hfl, { Same.refl c ss st1 with aw := ?_ }⟩
        show List.filter _ (l1 ++ _ :: l2) = _
        rw [hl1, filter_skip _ _ _ _ hma', filter_skip _ _ _ _ hma]
      have hst2 : ({ st with
          awaiting := l1 ++ { a with status := a.status.during k, flows := some (l.filter (· ≠ w)) } :: l2
          running := st.running.filter (fun r => r.1 ≠ w) } : State α κ) = { st1 with awaiting :=
          l1 ++ { a with status := a.status.during k, flows := some (l.filter (· ≠ w)) } :: l2 } := by
        rw [← hst1]
      rw [hst2]
      split
      · exact h1.keep (k2.trans (finalize_keep cfg _ _ _ k2.1 (get_mid _ _ _) hma'))
      · exact h1.keep k2
    | true =>
      have haE : a ∈ st.awaiting.filter (mine c ss) := List.mem_filter.mpr ⟨ham, hma⟩
      rcases h.phase with ⟨ho, _⟩ | ho
      case inr => rw [ho.aw] at haE; cases haE
      have side2 := less _ l1 a l2 l side1 hl hfl
      have hE : st.awaiting.filter (mine c ss) = l1.filter (mine c ss) ++ a :: l2.filter (mine c ss) := by
        rw [hl, filter_mid _ _ _ hma]
      have hma' : mine c ss { a with status := a.status.during k, flows := some (l.filter (· ≠ w)) } = true := hma
      have aw2 : (l1 ++ { a with status := a.status.during k, flows := some (l.filter (· ≠ w)) } :: l2).filter (mine c ss)
          = l1.filter (mine c ss) ++ { a with status := a.status.during k, flows := some (l.filter (· ≠ w)) } :: l2.filter (mine c ss) :=
        filter_mid l1 l2 _ hma'
      have hoth : ∀ b ∈ l1.filter (mine c ss) ++ l2.filter (mine c ss), b.sid ≠ a.sid ∧
          b ∈ st.awaiting.filter (mine c ss) := by
        intro b hb
        have hbE : b ∈ st.awaiting.filter (mine c ss) := by
          rw [hE]
          simp only [List.mem_append, List.mem_cons] at hb ⊢
          rcases hb with hb | hb
          · exact Or.inl hb
          · exact Or.inr (Or.inr hb)
        refine ⟨?_, hbE⟩
        intro eb
        have hn := hnd
        rw [← ho.sids, hE, List.map_append, List.map_cons, List.nodup_append] at hn
        obtain ⟨n1, n2, n3⟩ := hn
        rw [List.nodup_cons] at n2
        rcases List.mem_append.mp hb with hb | hb
        · exact n3 _ (List.mem_map.mpr ⟨b, hb, rfl⟩) a.sid (by simp) eb
        · exact n2.1 (List.mem_map.mpr ⟨b, hb, eb⟩)
      have memE : ∀ b ∈ l1.filter (mine c ss) ++ { a with status := a.status.during k, flows := some (l.filter (· ≠ w)) } :: l2.filter (mine c ss),
          b ∈ l1.filter (mine c ss) ++ l2.filter (mine c ss) ∨
          b = { a with status := a.status.during k, flows := some (l.filter (· ≠ w)) } := by
        intro b hb
        simp only [List.mem_append, List.mem_cons] at hb ⊢
        rcases hb with hb | hb | hb
        · exact Or.inl (Or.inl hb)
        · exact Or.inr hb
        · exact Or.inl (Or.inr hb)
      have hrunO : ∀ b ∈ l1.filter (mine c ss) ++ l2.filter (mine c ss), ∀ w',
          (w', b.sid) ∈ st.running.filter (fun r => r.1 ≠ w) ↔ (w', b.sid) ∈ st.running := by
        intro b hb w'
        obtain ⟨hne, hbE⟩ := hoth b hb
        rw [List.mem_filter]
        constructor
        · exact fun q => q.1
        · intro q
          refine ⟨q, ?_⟩
          simp only [ne_eq, decide_not, Bool.not_eq_true', decide_eq_false_iff_not]
          rintro rfl
          exact hne (hs.apart a ham l hfl _ hwl _ (mine_sid hs hbE) q)
      have open2 : Open cfg c ss ({ st with
          awaiting := l1 ++ { a with status := a.status.during k, flows := some (l.filter (· ≠ w)) } :: l2
          running := st.running.filter (fun r => r.1 ≠ w) } : State α κ) := by
        refine ⟨?_, ho.notes, ho.asks, ho.finS, ho.finNodup, ?_, ?_, ?_⟩
        · dsimp only
          rw [aw2]
          have := ho.sids
          rw [hE] at this
          simpa using this
        · dsimp only
          rw [aw2]
          intro b hb
          rcases memE b hb with hb | rfl
          · exact ho.waiting b (hoth b hb).2
          · constructor
            · intro q; cases q
            · intro q
              have := (ho.waiting a haE).mpr q
              rw [hfl] at this; cases this
        · dsimp only
          rw [aw2]
          intro b hb hbn w' hw'
          rcases memE b hb with hb | rfl
          · exact ho.idle b (hoth b hb).2 hbn w' ((hrunO b hb w').mp hw')
          · cases hbn
        · dsimp only
          rw [aw2]
          intro b hb l' hbl
          rcases memE b hb with hb | rfl
          · obtain ⟨i1, i2, i3⟩ := ho.run b (hoth b hb).2 l' hbl
            exact ⟨fun w' => (hrunO b hb w').trans (i1 w'), i2, i3⟩
          · cases hbl
            obtain ⟨i1, i2, i3⟩ := ho.run a haE l hfl
            refine ⟨?_, i2, i3⟩
            intro w'
            show (w', a.sid) ∈ _ ↔ _
            simp only [List.mem_filter, i1 w']
      by_cases hemp : l.filter (· ≠ w) = []
      · rw [if_pos hemp]
        refine finalize_mine cfg _ _ _ side2 (get_mid _ _ _) hma' ?_ open2 h.asked
        rw [hemp]
      · rw [if_neg hemp]
        refine ⟨side2, Or.inl ⟨open2, ?_⟩, h.asked⟩
        refine ⟨{ a with status := a.status.during k, flows := some (l.filter (· ≠ w)) }, ?_, ?_⟩
        · show _ ∈ (l1 ++ _ :: l2).filter _
          rw [aw2]; simp
        · intro q
          exact hemp (Option.some.inj q)

theorem step_asked (cfg : Cfg) {c : Cleanup} {ss : List Ent} (hnd : ss.Nodup) (st : State α κ) (e : Ev α κ)
    (h : Asked cfg c ss st) (he : Apart c st e) : Asked cfg c ss (step cfg st e) := by
  have hs := h.side
  cases e with
  | spawn =>
    exact h.keep ⟨⟨Nat.lt_succ_of_lt hs.1, fun s h' => Nat.lt_succ_of_lt (hs.2 s h'), fun x hx => Nat.lt_succ_of_lt (hs.3 x hx),
      hs.4, hs.5, hs.6, fun a ha l hl w hw => Nat.lt_succ_of_lt (hs.7 a ha l hl w hw),
      fun r hr => Nat.lt_succ_of_lt (hs.8 r hr), hs.9⟩, { Same.refl c ss st with }⟩
  | «begin» p bl ci u now => exact h.keep (begin_keep cfg p bl ci u now st hs he.1 he.2)
  | terminate t v now =>
    simp only [step]
    split
    · exact h.keep (terminate_keep cfg t v now st hs)
    · exact h
  | cancel t k now =>
    cases t with
    | none => exact h.keep (cancelAll_keep cfg k now _ st hs)
    | some t => exact h.keep (cancelOne_keep cfg t k now st hs)
  | validate t u now => exact h.keep (validate_keep cfg t u now st hs)
  | cleanup c' now => exact h.keep (dynCleanup_keep cfg c' now st hs he.2)
  | cleaned d =>
    simp only [step]
    split
    · rename_i hd; exact cleaned_asked cfg st h d hd
    · exact h
  | trigger => exact trigger_asked cfg hnd st h
  | flowDone w k => exact flowDone_asked cfg hnd st h w k
  | despawn p =>
    refine h.keep ⟨⟨hs.1, hs.2, hs.3, hs.4, ?_, hs.6, hs.7, hs.8, hs.9⟩, { Same.refl c ss st with }⟩
    intro x hx q hq
    replace hq : (if st.alive x.sid = some p then none else st.alive x.sid) = some q := hq
    split at hq
    · cases hq
    · exact hs.5 x hx q hq

theorem run_asked (cfg : Cfg) {c : Cleanup} {ss : List Ent} (hnd : ss.Nodup) : ∀ (es : List (Ev α κ)) (st : State α κ),
    Asked cfg c ss st → Along cfg (Apart c) st es → Asked cfg c ss (run cfg st es) := by
  intro es
  induction es with
  | nil => intro st h _; exact h
  | cons e es ih => intro st h hp; exact ih _ (step_asked cfg hnd st e h hp.1) hp.2

/-- The entry that the request makes for a session. -/
def entry (c : Cleanup) (s : Ent) : Awaiting κ :=
  { sid := s, parent := c.session, cleanup := c, status := .earlyCleanup }

/-- What the loop over the sessions leaves. -/
structure Loop (cfg : Cfg) (c : Cleanup) (ss : List Ent) (st st' : State α κ) : Prop where
  next : st'.next = st.next
  sessions : st'.sessions = st.sessions
  alive : st'.alive = st.alive
  running : st'.running = st.running
  out : st'.out = st.out
  awaiting : st'.awaiting = st.awaiting ++ ss.map (entry c)
  asked : ∀ d ∈ st.asked, d ∈ st'.asked
  all : ∀ s ∈ ss, AllAsked cfg s st'
  rest : (st'.contents c.id = none ∧ st'.pending = st.pending ∧
      ∃ F : List Cleanup, st'.finished = F ++ st.finished ∧ F.map (·.session) = ss.reverse ∧
        ∀ d ∈ F, d.id = c.id) ∨
    ∃ s ns, ss = [s] ∧ ns ≠ [] ∧ ns.Nodup ∧ st'.contents c.id = some ns ∧
      st'.pending = st.pending ++ ns.map (ask cfg c s) ∧ st'.finished = st.finished

/-- One turn of the loop. -/
theorem cleanOne_loop (cfg : Cfg) (hn : cfg.nodes.Nodup) (c : Cleanup) (now : List (Ent × Ent))
    (s : Ent) (st : State α κ) (ha : st.alive s = some c.session) (hc : st.contents c.id = none) :
    ∃ st', cleanOne cfg c .earlyCleanup now s st = some st' ∧ Loop cfg c [s] st st' ∧
      ((∀ n ∈ cfg.nodes, (n, s) ∈ now) → st'.contents c.id = none) := by
  unfold cleanOne
  rw [ha]
  dsimp only
  by_cases hemp : cfg.nodes = []
  · rw [if_pos (by simp [hemp])]
    refine ⟨_, rfl, ⟨rfl, rfl, rfl, rfl, rfl, rfl, fun _ h => h, ?_, Or.inl ⟨hc, rfl, ?_⟩⟩, fun _ => hc⟩
    · intro _ _ n h
      rw [hemp] at h; cases h
    · exact ⟨[ask cfg c s cfg.self], rfl, rfl, by simp [ask]⟩
  · rw [if_neg (by simpa using hemp)]
    refine ⟨_, rfl, ?_⟩
    generalize hst2 : ({ st with
      contents := fun i => if i = c.id then some cfg.nodes else st.contents i
      awaiting := st.awaiting ++ [{ sid := s, parent := c.session, cleanup := c, status := .earlyCleanup }] } : State α κ) = st2
    have fr := cleanNodes_frame cfg.self s c.id now cfg.nodes st2
    have heq := cleanNodes_eq cfg.self s c.id now cfg.nodes st2 [] (by rw [← hst2]; simp)
      (by simpa using hn) (by simpa using hemp)
    dsimp only at heq
    generalize cleanNodes cfg.self s c.id now cfg.nodes st2 = st3 at *
    obtain ⟨e1, e2, e3, e4⟩ := heq
    refine ⟨⟨?_, ?_, ?_, ?_, ?_, ?_, ?_, ?_, ?_⟩, ?_⟩
    · rw [fr.next, ← hst2]
    · rw [fr.sessions, ← hst2]
    · rw [fr.alive, ← hst2]
    · rw [fr.running, ← hst2]
    · rw [fr.out, ← hst2]
    · rw [fr.awaiting, ← hst2]; rfl
    · intro d hd
      rw [e1, ← hst2]
      exact List.mem_append_left _ hd
    · intro s' hs' n hn'
      rw [List.mem_singleton.mp hs']
      refine ⟨ask cfg c s n, ?_, rfl, rfl⟩
      rw [e1]
      exact List.mem_append_right _ (List.mem_map.mpr ⟨n, hn', rfl⟩)
    · rcases e4 with ⟨f1, f2, n, f3⟩ | ⟨f1, f2, f3⟩
      · refine Or.inl ⟨f2, ?_, [ask cfg c s n], ?_, rfl, by simp [ask]⟩
        · rw [List.nil_append] at f1
          rw [e2, f1, ← hst2]; simp
        · rw [f3, ← hst2]; rfl
      · refine Or.inr ⟨s, _, rfl, ?_, ?_, f2, ?_, ?_⟩
        · simpa using f1
        · exact hn.sublist (by simp)
        · rw [e2, ← hst2]; rfl
        · rw [f3, ← hst2]
    · intro hall
      rcases e4 with ⟨_, f2, _⟩ | ⟨f1, _, _⟩
      · exact f2
      · refine absurd ?_ f1
        rw [List.nil_append, List.filter_eq_nil_iff]
        intro n hn'
        simpa using hall n hn'

/-- The loop. -/
theorem cleanupEntire_loop (cfg : Cfg) (hn : cfg.nodes.Nodup) (c : Cleanup) (now : List (Ent × Ent)) :
    ∀ (ss : List Ent) (st : State α κ), (∀ s ∈ ss, st.alive s = some c.session) →
      st.contents c.id = none →
      ((∃ s, ss = [s]) ∨ ∀ s ∈ ss, ∀ n ∈ cfg.nodes, (n, s) ∈ now) →
      Loop cfg c ss st (cleanupEntire cfg c .earlyCleanup now ss st) ∧
        ((∀ s ∈ ss, ∀ n ∈ cfg.nodes, (n, s) ∈ now) →
          (cleanupEntire cfg c .earlyCleanup now ss st).contents c.id = none) := by
  intro ss
  induction ss with
  | nil =>
    intro st _ hc _
    refine ⟨?_, fun _ => hc⟩
    exact ⟨rfl, rfl, rfl, rfl, rfl, by simp [cleanupEntire], fun _ h => h, by simp,
      Or.inl ⟨hc, rfl, [], rfl, rfl, by simp⟩⟩
  | cons s ss ih =>
    intro st ha hc h
    obtain ⟨st1, e, g, hnow⟩ := cleanOne_loop cfg hn c now s st (ha s (by simp)) hc
    rw [cleanupEntire, e]
    dsimp only
    rcases h with ⟨s', e'⟩ | h
    · cases e'
      exact ⟨g, fun h => hnow (h s (by simp))⟩
    · have hc1 := hnow (h s (by simp))
      obtain ⟨g2, hnow2⟩ := ih st1 (by intro x hx; rw [g.alive]; exact ha x (by simp [hx])) hc1
        (Or.inr fun x hx => h x (by simp [hx]))
      generalize cleanupEntire cfg c .earlyCleanup now ss st1 = st2 at *
      have r1 : st1.pending = st.pending ∧ ∃ F : List Cleanup, st1.finished = F ++ st.finished ∧
          F.map (·.session) = [s] ∧ ∀ d ∈ F, d.id = c.id := by
        rcases g.rest with ⟨_, a, b⟩ | ⟨_, _, _, hne, _, b, _⟩
        · exact ⟨a, b⟩
        · rw [hc1] at b; cases b
      obtain ⟨p1, F1, f1, m1, i1⟩ := r1
      have hc2 := hnow2 fun x hx => h x (by simp [hx])
      refine ⟨?_, fun _ => hc2⟩
      refine ⟨g2.next.trans g.next, g2.sessions.trans g.sessions, g2.alive.trans g.alive,
        g2.running.trans g.running, g2.out.trans g.out, ?_, fun d hd => g2.asked d (g.asked d hd), ?_, ?_⟩
      · rw [g2.awaiting, g.awaiting]; simp
      · intro x hx
        rcases List.mem_cons.mp hx with rfl | hx
        · intro n hn'
          obtain ⟨d, hd, q⟩ := g.all x (by simp) n hn'
          exact ⟨d, g2.asked d hd, q⟩
        · exact g2.all x hx
      · rcases g2.rest with ⟨a, p2, F2, f2, m2, i2⟩ | ⟨x, ns, e2, hne, hnd, b, _⟩
        · refine Or.inl ⟨a, p2.trans p1, F2 ++ F1, by rw [f2, f1, List.append_assoc], ?_, ?_⟩
          · rw [List.map_append, m2, m1]; simp
          · intro d hd
            rcases List.mem_append.mp hd with hd | hd
            · exact i2 d hd
            · exact i1 d hd
        · rw [hc2] at b; cases b

/-- The request of the parent. -/
theorem request_asked (cfg : Cfg) (hn : cfg.nodes.Nodup) (hu : cfg.uninterruptible = false)
    (c : Cleanup) (now : List (Ent × Ent)) (st : State α κ) (q : Quiet cfg none st)
    (he : ∃ s, Ongoing s c.session st) (h1 : Sole cfg c now st) :
    ∃ ss : List Ent, ss.Nodup ∧ (∀ s, s ∈ ss ↔ Ongoing s c.session st) ∧
      Asked cfg c ss (step cfg st (.cleanup c now)) := by
  -- all sessions of the parent are on their way
  have hon : ∀ x ∈ st.sessions, x.parent = c.session → x.status = .ongoing := by
    intro x hx e
    rcases q.status x hx with h | h
    · exact h
    · exfalso
      obtain ⟨a, ha, ea⟩ := q.started x hx h
      cases hf : a.flows with
      | none =>
        obtain ⟨y, hy, e1, e2, _⟩ := q.idle a ha hf
        have := eq_of_nodup_map _ q.nodup hy hx (e1.trans ea)
        subst this
        exact (h1.awaiting a ha).1 (e2.symm.trans e)
      | some fs => exact q.begunA a ha (by rw [hf]; simp) _ hx ea.symm
  generalize hss : (st.sessions.filter (fun x => x.parent == c.session)).map (·.sid) = ss
  have hmem : ∀ s, s ∈ ss ↔ Ongoing s c.session st := by
    intro s
    rw [← hss, List.mem_map]
    constructor
    · rintro ⟨x, hx, rfl⟩
      obtain ⟨hx, e⟩ := List.mem_filter.mp hx
      have e' : x.parent = c.session := by simpa using e
      have := hon x hx e'
      cases x
      simp only at e' this
      subst e' this
      exact hx
    · intro h
      exact ⟨_, List.mem_filter.mpr ⟨h, by simp⟩, rfl⟩
  have hnd : ss.Nodup := by
    rw [← hss]
    exact q.nodup.sublist ((List.filter_sublist).map _)
  have hne : ss ≠ [] := by
    obtain ⟨s, h⟩ := he
    intro e
    have := (hmem s).mpr h
    rw [e] at this; cases this
  refine ⟨ss, hnd, hmem, ?_⟩
  have hnoent : ∀ b ∈ st.awaiting, b.sid ∉ ss := by
    intro b hb e
    have hxm := (hmem _).mp e
    cases hf : b.flows with
    | none =>
      obtain ⟨y, hy, e1, _, e3⟩ := q.idle b hb hf
      have := eq_of_nodup_map _ q.nodup hy hxm e1
      subst this
      exact e3
    | some fs => exact q.begunA b hb (by rw [hf]; simp) _ hxm rfl
  have htr : transition (fun p => p.parent == c.session) (Status.toCleanup cfg.uninterruptible) st.sessions
      = (st.sessions.map (fun x => if x.parent = c.session then { x with status := .cleanup } else x), ss) := by
    unfold transition
    rw [hu, ← hss]
    refine Prod.ext ?_ ?_
    · dsimp only
      apply List.map_congr_left
      intro x hx
      by_cases e : x.parent = c.session
      · rw [if_pos (by simpa using e), if_pos e, hon x hx e]; rfl
      · rw [if_neg (by simpa using e), if_neg e]
    · dsimp only
      congr 1
      apply List.filter_congr
      intro x hx
      by_cases e : x.parent = c.session
      · rw [hon x hx e]; simp [Status.toCleanup]
      · have : (x.parent == c.session) = false := by simpa using e
        rw [this]; rfl
  have hcontn : st.contents c.id = none := by
    cases hc : st.contents c.id with
    | none => rfl
    | some ns =>
      obtain ⟨a, ha, _, e⟩ := q.cont _ _ hc
      exact absurd e (h1.awaiting a ha).2
  -- nothing of the request was there before
  have hC : ∀ (a : Awaiting κ) n, a ∈ st.awaiting → mineC c ss (mkClean cfg a n) = false := by
    intro a n ha
    have h2 := (h1.awaiting a ha).2
    have h3 := hnoent a ha
    simp [mineC, mkClean, h2, h3]
  have hpendn : st.pending.filter (mineC c ss) = [] := by
    rw [List.filter_eq_nil_iff]
    intro d hd hm
    obtain ⟨a, ha, hf, e⟩ := q.pend d hd
    have : d ∈ st.pending.filter (fun c => c.session = a.sid) := by simp [List.mem_filter, hd, e]
    rcases q.prog a ha hf with ⟨_, _, e2⟩ | ⟨ns, _, _, _, _, e2⟩
    · rw [e2] at this; cases this
    · rw [e2] at this
      obtain ⟨n, _, rfl⟩ := List.mem_map.mp this
      have := hC a n ha
      rw [hm] at this; cases this
  have hfinn : st.finished.filter (mineC c ss) = [] := by
    rw [List.filter_eq_nil_iff]
    intro d hd hm
    obtain ⟨a, ha, hf, e⟩ := q.fin d hd
    have hmem : d ∈ st.finished.filter (fun c => c.session = a.sid) := by simp [List.mem_filter, hd, e]
    rcases q.prog a ha hf with ⟨_, ⟨n, e2⟩, _⟩ | ⟨ns, _, _, _, e2, _⟩
    · rw [e2] at hmem
      rw [List.mem_singleton.mp hmem] at hm
      have := hC a n ha
      rw [hm] at this; cases this
    · rw [e2] at hmem; cases hmem
  have hrunn : ∀ s ∈ ss, ∀ w, (w, s) ∉ st.running := by
    intro s hs w hw
    obtain ⟨a, ha, e, _⟩ := q.run _ hw
    have := hnoent a ha
    rw [e] at this
    exact this hs
  have hawn : st.awaiting.filter (mine c ss) = [] := by
    rw [List.filter_eq_nil_iff]
    intro a ha hm
    simp only [mine, Bool.or_eq_true, beq_iff_eq] at hm
    rcases hm with (hm | hm) | hm
    · exact hnoent a ha (by simpa using hm)
    · exact (h1.awaiting a ha).1 hm
    · exact (h1.awaiting a ha).2 hm
  -- the loop
  obtain ⟨hL, _⟩ := cleanupEntire_loop cfg hn c now ss ({ st with
      sessions := st.sessions.map (fun x => if x.parent = c.session then { x with status := .cleanup } else x) } : State α κ)
    (fun s hs => q.alive _ ((hmem s).mp hs)) hcontn (by
      rcases h1.one with h | h
      · refine Or.inl ?_
        cases hl : ss with
        | nil => exact absurd hl hne
        | cons s l =>
          cases l with
          | nil => exact ⟨s, rfl⟩
          | cons t l =>
            exfalso
            have e := h _ ((hmem s).mp (by rw [hl]; simp)) _ ((hmem t).mp (by rw [hl]; simp)) rfl rfl
            rw [hl] at hnd
            dsimp only at e
            subst e
            simp at hnd
      · exact Or.inr fun s hs => h _ ((hmem s).mp hs) rfl)
  have hgoal : step cfg st (.cleanup c now) = cleanupEntire cfg c .earlyCleanup now ss { st with
      sessions := st.sessions.map (fun x => if x.parent = c.session then { x with status := .cleanup } else x) } := by
    show dynCleanup cfg c now st = _
    unfold dynCleanup
    dsimp only
    rw [htr]
    dsimp only
    rw [if_neg (by simpa using hne)]
  rw [hgoal]
  generalize cleanupEntire cfg c .earlyCleanup now ss _ = st3 at hL ⊢
  have hmemS : ∀ x ∈ st3.sessions, ∃ y ∈ st.sessions, y.sid = x.sid ∧ y.parent = x.parent ∧
      (x.parent = c.session → x.status = .cleanup) := by
    intro x hx
    rw [hL.sessions] at hx
    obtain ⟨y, hy, rfl⟩ := List.mem_map.mp hx
    refine ⟨y, hy, ?_⟩
    by_cases e : y.parent = c.session
    · rw [if_pos e]; exact ⟨rfl, rfl, fun _ => rfl⟩
    · rw [if_neg e]; exact ⟨rfl, rfl, fun e' => absurd e' e⟩
  have hmemA : ∀ a ∈ st3.awaiting, a ∈ st.awaiting ∨ ∃ s ∈ ss, a = entry c s := by
    intro a ha
    rw [hL.awaiting] at ha
    rcases List.mem_append.mp ha with ha | ha
    · exact Or.inl ha
    · obtain ⟨s, hs, e⟩ := List.mem_map.mp ha
      exact Or.inr ⟨s, hs, e.symm⟩
  have hment : ∀ s ∈ ss, mine c ss (entry c s : Awaiting κ) = true := by
    intro s hs; simp [mine, entry]
  have hE : st3.awaiting.filter (mine c ss) = ss.map (entry c) := by
    rw [hL.awaiting]
    show List.filter _ (st.awaiting ++ _) = _
    rw [List.filter_append, hawn, List.nil_append, List.filter_eq_self.mpr]
    intro a ha
    obtain ⟨s, hs, rfl⟩ := List.mem_map.mp ha
    exact hment s hs
  have hEm : ∀ a ∈ st3.awaiting.filter (mine c ss), ∃ s ∈ ss, a = entry c s := by
    intro a ha
    rw [hE] at ha
    obtain ⟨s, hs, e⟩ := List.mem_map.mp ha
    exact ⟨s, hs, e.symm⟩
  have hrun3 : ∀ s ∈ ss, ∀ w, (w, s) ∉ st3.running := by
    rw [hL.running]; exact hrunn
  refine ⟨⟨?_, ?_, ?_, ?_, ?_, ?_, ?_, ?_, ?_⟩, Or.inl ⟨?_, ?_⟩, hL.all⟩
  · rw [hL.next]; exact h1.known
  · intro s hs
    rw [hL.next]
    exact (q.bS _ ((hmem s).mp hs)).1
  · intro x hx
    obtain ⟨y, hy, e1, _⟩ := hmemS x hx
    rw [hL.next, ← e1]
    exact (q.bS y hy).1
  · intro x hx
    obtain ⟨y, hy, e1, e2, e3⟩ := hmemS x hx
    rw [← e1, ← e2]
    refine ⟨(h1.id y hy).1, ?_, ?_, (h1.id y hy).2⟩
    · intro e
      rw [← hss]
      exact List.mem_map.mpr ⟨y, List.mem_filter.mpr ⟨hy, by simpa using e⟩, rfl⟩
    · intro hs
      have := eq_of_nodup_map _ q.nodup hy ((hmem _).mp hs) rfl
      refine e3 ?_
      rw [← e2, this]
  · intro x hx p hp
    obtain ⟨y, hy, e1, e2, e3⟩ := hmemS x hx
    rw [hL.alive] at hp
    have := q.alive y hy
    rw [e1] at this
    rw [← e2]
    replace hp : st.alive x.sid = some p := hp
    rw [this] at hp
    exact (Option.some.inj hp).symm
  · intro a ha hm
    obtain ⟨s, hs, rfl⟩ := hEm a (List.mem_filter.mpr ⟨ha, hm⟩)
    exact ⟨hs, rfl, rfl, rfl⟩
  · intro a ha l hl' w hw
    rw [hL.next]
    rcases hmemA a ha with ha | ⟨s, _, rfl⟩
    · exact q.runB _ (((q.flows a ha l hl').2 w).mp hw)
    · cases hl'
  · rw [hL.running, hL.next]; exact q.runB
  · intro a _ l _ w _ s hs hr
    exact absurd hr (hrun3 s hs w)
  · have hmask : ∀ s ∈ ss, ∀ n, mineC c ss (ask cfg c s n) = true := by
      intro s hs n; simp [mineC, ask]
    refine ⟨?_, ?_, ?_, ?_, ?_, ?_, ?_, ?_⟩
    · rw [hE]; simp [entry, Function.comp_def]
    · unfold answers; rw [hL.out]; exact h1.fresh
    · rcases hL.rest with ⟨r1, r2, _⟩ | ⟨s, ns, e, r1, r2, r3, r4, r5⟩
      · exact Or.inl ⟨r1, by rw [r2]; exact hpendn⟩
      · refine Or.inr ⟨s, ns, e, r1, r2, r3, ?_, by rw [r5]; exact hfinn⟩
        rw [r4, List.filter_append]
        show st.pending.filter _ ++ _ = _
        rw [hpendn, List.nil_append, List.filter_eq_self.mpr]
        intro d hd
        obtain ⟨n, _, rfl⟩ := List.mem_map.mp hd
        exact hmask s (by rw [e]; simp) n
    all_goals
      have hF : (∃ F : List Cleanup, st3.finished.filter (mineC c ss) = F ∧ F.map (·.session) = ss.reverse ∧
          ∀ d ∈ F, d.id = c.id) ∨ (st3.finished.filter (mineC c ss) = [] ∧
          ∃ s n, ss = [s] ∧ ask cfg c s n ∈ st3.pending.filter (mineC c ss)) := by
        rcases hL.rest with ⟨_, _, F, r1, r2, r3⟩ | ⟨s, ns, e, r1, r2, r3, r4, r5⟩
        · refine Or.inl ⟨F, ?_, r2, r3⟩
          rw [r1, List.filter_append]
          show _ ++ st.finished.filter _ = _
          rw [hfinn, List.append_nil, List.filter_eq_self.mpr]
          intro d hd
          simp [mineC, r3 d hd]
        · refine Or.inr ⟨by rw [r5]; exact hfinn, ?_⟩
          obtain ⟨n, l, rfl⟩ := List.exists_cons_of_ne_nil r1
          refine ⟨s, n, e, List.mem_filter.mpr ⟨?_, hmask s (by rw [e]; simp) n⟩⟩
          rw [r4]; simp
    · rcases hF with ⟨F, e, m, i⟩ | ⟨e, _⟩
      · rw [e]
        intro d hd
        refine ⟨?_, i d hd⟩
        have : d.session ∈ F.map (·.session) := List.mem_map.mpr ⟨d, hd, rfl⟩
        rw [m] at this
        simpa using this
      · rw [e]; simp
    · rcases hF with ⟨F, e, m, i⟩ | ⟨e, _⟩
      · rw [e, m]
        unfold List.Nodup
        rw [List.pairwise_reverse]
        exact List.Pairwise.imp Ne.symm hnd
      · rw [e]; simp
    · intro a ha
      obtain ⟨s, hs, rfl⟩ := hEm a ha
      refine ⟨fun _ => ?_, fun _ => rfl⟩
      rcases hF with ⟨F, e, m, i⟩ | ⟨e, s', n, e2, hp⟩
      · refine Or.inl ?_
        rw [e]
        have : s ∈ F.map (·.session) := by rw [m]; simpa using hs
        obtain ⟨d, hd, e'⟩ := List.mem_map.mp this
        exact ⟨d, hd, e'⟩
      · refine Or.inr ⟨_, hp, ?_⟩
        rw [e2] at hs
        exact (List.mem_singleton.mp hs).symm
    · intro a ha _ w
      obtain ⟨s, hs, rfl⟩ := hEm a ha
      exact hrun3 s hs w
    · intro a ha l hl
      obtain ⟨s, hs, rfl⟩ := hEm a ha
      cases hl
  · obtain ⟨s, l, e⟩ := List.exists_cons_of_ne_nil hne
    refine ⟨entry c s, ?_, by simp [entry]⟩
    rw [hE, e]; simp

end Verif.Scope
