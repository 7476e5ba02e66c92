import Verif.Server.Spec
/-
The invariant of the execution server.
-/
namespace Verif.Server

variable {D V : Type}

theorem upd_self {α : Type} (f : Nat → α) (n : Nat) (a : α) : upd f n a n = a := by simp [upd]

theorem upd_other {α : Type} (f : Nat → α) {n m : Nat} (a : α) (h : m ≠ n) :
    upd f n a m = f m := by simp [upd, h]

def Holds (p : Phase V) (w : Nat) : Prop := p = .awaiting w ∨ ∃ r, p = .releasing w r

def OwnOf (f : Workflow D V) (c : Nat) (k : Client D V) : Prop :=
  f.owner = c ∧ f.diagram = k.diagram ∧ f.input = k.input

/-- Why a request may be answered with `r`. -/
def Right (build : D → Build V) (s : Server D V) (c : Nat) (k : Client D V) (r : Resp V) : Prop :=
  (∃ e, build k.diagram = .err e ∧ r = .refused e)
  ∨ (∃ w f o, s.workflows w = some f ∧ OwnOf f c k ∧ f.complete = true ∧ f.outcome = some o ∧
      r = respond o)
  ∨ (s.up = false ∧ r = .internal)

structure Inv (build : D → Build V) (s : Server D V) : Prop where
  range : ∀ c, s.arrived ≤ c → s.clients c = none
  wrange : ∀ w, s.made ≤ w → s.workflows w = none
  waits : ∀ c k w, s.clients c = some k → Holds k.phase w →
    ∃ f, s.workflows w = some f ∧ OwnOf f c k ∧ f.complete = true ∧ (s.up = true → f.alive = true)
  rel : ∀ c k w r, s.clients c = some k → k.phase = .releasing w r →
    ∃ f o, s.workflows w = some f ∧ f.outcome = some o ∧ r = respond o
  ans : ∀ c k r, s.clients c = some k → k.phase = .answered r → Right build s c k r
  queued : ∀ c k, s.clients c = some k → k.phase = .queued → s.up = true ∧ c ∈ s.inbox
  acc : ∀ c, c ∈ s.accepted → ∃ k, s.clients c = some k ∧ k.phase ≠ .sending
  nodup : s.accepted.Nodup
  order : s.up = true → s.accepted = s.started ++ s.inbox
  starts : s.started <+: s.accepted
  owners : ∀ w f, s.workflows w = some f → f.owner ∈ s.started
  single : ∀ w f w' f', s.workflows w = some f → s.workflows w' = some f' → f.owner = f'.owner →
    w = w'
  inboxed : ∀ c, c ∈ s.inbox → ∃ k, s.clients c = some k ∧ (k.phase = .queued ∨ k.phase = .gone)
  out : ∀ w, w ∈ s.outbox → ∃ f, s.workflows w = some f ∧ f.complete = true ∧
    f.outcome.isSome = true ∧ ∃ k r, s.clients f.owner = some k ∧ k.phase = .answered r
  dead : ∀ w f, s.workflows w = some f → s.up = true → f.alive = false →
    f.complete = true ∧ f.outcome.isSome = true ∧
      ∃ k r, s.clients f.owner = some k ∧ k.phase = .answered r

theorem inv_initial (build : D → Build V) : Inv build (initial : Server D V) := by
  constructor <;> simp [initial]

theorem Right.mono {build : D → Build V} {s s' : Server D V} {c : Nat} {k : Client D V}
    {r : Resp V} (h : Right build s c k r) (hup : s.up = false → s'.up = false)
    (hw : ∀ w f, s.workflows w = some f → ∃ f', s'.workflows w = some f' ∧ f'.owner = f.owner ∧
      f'.diagram = f.diagram ∧ f'.input = f.input ∧ f'.complete = f.complete ∧
      ∀ o, f.outcome = some o → f'.outcome = some o) : Right build s' c k r := by
  rcases h with h | ⟨w, f, o, h1, ⟨h2, h3, h4⟩, h5, h6, h7⟩ | ⟨h1, h2⟩
  · exact .inl h
  · obtain ⟨f', e1, e2, e3, e4, e5, e6⟩ := hw w f h1
    exact .inr (.inl ⟨w, f', o, e1, ⟨e2.trans h2, e3.trans h3, e4.trans h4⟩, e5.trans h5,
      e6 o h6, h7⟩)
  · exact .inr (.inr ⟨hup h1, h2⟩)

theorem Right.phase {build : D → Build V} {s : Server D V} {c : Nat} {k : Client D V}
    {r : Resp V} (h : Right build s c k r) (p : Phase V) :
    Right build s c { k with phase := p } r := h

/-- A handler goes on; the channels stay. -/
theorem Inv.move {build : D → Build V} {s : Server D V} (h : Inv build s) {c : Nat}
    {k : Client D V} (hk : s.clients c = some k) {p : Phase V}
    (hold : ∀ r, k.phase ≠ .answered r)
    (hq : k.phase = .queued ∨ k.phase = .gone → p = .gone)
    (hnq : p ≠ .queued) (hns : p ≠ .sending)
    (hwait : ∀ w, Holds p w → ∃ f, s.workflows w = some f ∧ OwnOf f c k ∧ f.complete = true ∧
      (s.up = true → f.alive = true))
    (hrel : ∀ w r, p = .releasing w r → ∃ f o, s.workflows w = some f ∧ f.outcome = some o ∧
      r = respond o)
    (hans : ∀ r, p = .answered r → Right build s c k r) : Inv build (s.setPhase c k p) := by
  have key : ∀ c' k', (s.setPhase c k p).clients c' = some k' →
      (c' = c ∧ k' = { k with phase := p }) ∨ (c' ≠ c ∧ s.clients c' = some k') := by
    intro c' k' hc'
    by_cases hcc : c' = c
    · subst hcc; simp [Server.setPhase, upd_self] at hc'; exact .inl ⟨rfl, hc'.symm⟩
    · simp [Server.setPhase, upd_other _ _ hcc] at hc'; exact .inr ⟨hcc, hc'⟩
  have other : ∀ c', c' ≠ c → (s.setPhase c k p).clients c' = s.clients c' := by
    intro c' hcc; simp [Server.setPhase, upd_other _ _ hcc]
  have self : (s.setPhase c k p).clients c = some { k with phase := p } := by
    simp [Server.setPhase, upd_self]
  refine ⟨?_, h.wrange, ?_, ?_, ?_, ?_, ?_, h.nodup, h.order, h.starts, h.owners, h.single, ?_, ?_,
    ?_⟩
  · intro c' hc'
    rw [other]
    · exact h.range c' hc'
    · rintro rfl; rw [h.range _ hc'] at hk; cases hk
  · intro c' k' w h1 h2
    rcases key c' k' h1 with ⟨rfl, rfl⟩ | ⟨_, h3⟩
    · exact hwait w h2
    · exact h.waits c' k' w h3 h2
  · intro c' k' w r h1 h2
    rcases key c' k' h1 with ⟨rfl, rfl⟩ | ⟨_, h3⟩
    · exact hrel w r h2
    · exact h.rel c' k' w r h3 h2
  · intro c' k' r h1 h2
    rcases key c' k' h1 with ⟨rfl, rfl⟩ | ⟨_, h3⟩
    · exact hans r h2
    · exact h.ans c' k' r h3 h2
  · intro c' k' h1 h2
    rcases key c' k' h1 with ⟨rfl, rfl⟩ | ⟨_, h3⟩
    · exact absurd h2 hnq
    · exact h.queued c' k' h3 h2
  · intro c' h1
    by_cases hcc : c' = c
    · subst hcc; exact ⟨_, self, hns⟩
    · rw [other c' hcc]; exact h.acc c' h1
  · intro c' h1
    by_cases hcc : c' = c
    · subst hcc
      obtain ⟨k', h2, h3⟩ := h.inboxed c' h1
      rw [hk] at h2; cases h2
      exact ⟨_, self, .inr (hq h3)⟩
    · rw [other c' hcc]; exact h.inboxed c' h1
  · intro w h1
    obtain ⟨f, h2, h3, h4, k', r, h5, h6⟩ := h.out w h1
    refine ⟨f, h2, h3, h4, k', r, ?_, h6⟩
    rw [other]
    · exact h5
    · rintro rfl; rw [hk] at h5; cases h5; exact hold r h6
  · intro w f h1 h2 h3
    obtain ⟨h4, h5, k', r, h6, h7⟩ := h.dead w f h1 h2 h3
    refine ⟨h4, h5, k', r, ?_, h7⟩
    rw [other]
    · exact h6
    · rintro rfl; rw [hk] at h6; cases h6; exact hold r h7

/-- The request at the head of the channel is taken and a workflow is spawned for it. -/
theorem Inv.take {build : D → Build V} {s : Server D V} (h : Inv build s) {c : Nat}
    {rest : List Nat} {k : Client D V} (hup : s.up = true) (hin : s.inbox = c :: rest)
    (hk : s.clients c = some k) {complete : Bool} {p : Phase V}
    (hp : k.phase = .gone ∧ p = .gone ∨ k.phase ≠ .gone ∧
      (p = .awaiting s.made ∧ complete = true ∨
        ∃ e, build k.diagram = .err e ∧ p = .answered (.refused e))) :
    Inv build ((Server.spawn { s with inbox := rest, started := s.started ++ [c] } c k
      complete).setPhase c k p) := by
  have hord := h.order hup
  have hnd := h.nodup
  rw [hord, hin] at hnd
  have hcs : c ∉ s.started := by
    intro hc; rw [List.nodup_append] at hnd; exact hnd.2.2 c hc c (by simp) rfl
  have hcr : c ∉ rest := by
    rw [List.nodup_append] at hnd; simp at hnd; exact hnd.2.1.1
  obtain ⟨k0, hk0, hph⟩ := h.inboxed c (by simp [hin])
  rw [hk] at hk0; cases hk0
  have hnans : ∀ r, k.phase ≠ .answered r := by rcases hph with e | e <;> simp [e]
  have hpq : p ≠ .queued ∧ p ≠ .sending := by
    rcases hp with ⟨_, rfl⟩ | ⟨_, ⟨rfl, _⟩ | ⟨e, _, rfl⟩⟩ <;> simp
  have hc : ∀ c', ((Server.spawn { s with inbox := rest, started := s.started ++ [c] } c k
      complete).setPhase c k p).clients c' =
        if c' = c then some { k with phase := p } else s.clients c' := by
    intro c'; simp [Server.setPhase, Server.spawn, upd]
  have hw : ∀ w, ((Server.spawn { s with inbox := rest, started := s.started ++ [c] } c k
      complete).setPhase c k p).workflows w =
        if w = s.made then some ⟨c, k.diagram, k.input, complete, true, none⟩
        else s.workflows w := by
    intro c'; simp [Server.setPhase, Server.spawn, upd]
  have hold : ∀ w f, s.workflows w = some f → w ≠ s.made := by
    rintro w f hwf rfl; rw [h.wrange _ (Nat.le_refl _)] at hwf; cases hwf
  generalize hs' : ((Server.spawn { s with inbox := rest, started := s.started ++ [c] } c k
      complete).setPhase c k p) = s' at hc hw
  have e1 : s'.arrived = s.arrived := by subst hs'; rfl
  have e2 : s'.made = s.made + 1 := by subst hs'; rfl
  have e3 : s'.inbox = rest := by subst hs'; rfl
  have e4 : s'.outbox = s.outbox := by subst hs'; rfl
  have e5 : s'.accepted = s.accepted := by subst hs'; rfl
  have e6 : s'.started = s.started ++ [c] := by subst hs'; rfl
  have e7 : s'.up = s.up := by subst hs'; rfl
  clear hs'
  have grow : ∀ w f, s.workflows w = some f → s'.workflows w = some f := by
    intro w f hwf; rw [hw, if_neg (hold w f hwf)]; exact hwf
  have right : ∀ c' k' r, Right build s c' k' r → Right build s' c' k' r := by
    intro c' k' r hr
    refine hr.mono (by rw [e7]; exact id) ?_
    intro w f hwf; exact ⟨f, grow w f hwf, rfl, rfl, rfl, rfl, fun _ => id⟩
  constructor
  · intro c' hc'
    rw [e1] at hc'
    have := h.range c' hc'
    rw [hc, if_neg]; exact this
    rintro rfl; rw [hk] at this; cases this
  · intro w hw'
    rw [e2] at hw'
    rw [hw, if_neg (by omega)]; exact h.wrange w (by omega)
  · intro c' k' w h1 h2
    rw [hc] at h1
    split at h1
    · subst_vars; cases h1
      rcases hp with ⟨_, rfl⟩ | ⟨_, ⟨rfl, rfl⟩ | ⟨e, _, rfl⟩⟩
      · simp [Holds] at h2
      · simp [Holds] at h2; subst h2
        exact ⟨_, by rw [hw, if_pos rfl], ⟨rfl, rfl, rfl⟩, rfl, fun _ => rfl⟩
      · simp [Holds] at h2
    · obtain ⟨f, g1, g2, g3, g4⟩ := h.waits c' k' w h1 h2
      exact ⟨f, grow w f g1, g2, g3, by rw [e7]; exact g4⟩
  · intro c' k' w r h1 h2
    rw [hc] at h1
    split at h1
    · subst_vars; cases h1
      rcases hp with ⟨_, rfl⟩ | ⟨_, ⟨rfl, rfl⟩ | ⟨e, _, rfl⟩⟩ <;> simp at h2
    · obtain ⟨f, o, g1, g2, g3⟩ := h.rel c' k' w r h1 h2
      exact ⟨f, o, grow w f g1, g2, g3⟩
  · intro c' k' r h1 h2
    rw [hc] at h1
    split at h1
    · subst_vars; cases h1
      rcases hp with ⟨_, rfl⟩ | ⟨_, ⟨rfl, rfl⟩ | ⟨e, hb, rfl⟩⟩
      · simp at h2
      · simp at h2
      · simp at h2; exact .inl ⟨e, hb, h2.symm⟩
    · exact right c' k' r (h.ans c' k' r h1 h2)
  · intro c' k' h1 h2
    rw [hc] at h1
    split at h1
    · cases h1; exact absurd h2 hpq.1
    · rename_i hne
      obtain ⟨g1, g2⟩ := h.queued c' k' h1 h2
      rw [hin] at g2
      rw [e7, e3]; exact ⟨g1, by simpa [hne] using g2⟩
  · intro c' h1
    rw [e5] at h1
    rw [hc]; split
    · exact ⟨_, rfl, hpq.2⟩
    · exact h.acc c' h1
  · rw [e5]; exact h.nodup
  · intro _; rw [e5, e6, e3, hord, hin]; simp
  · rw [e5, e6, hord, hin]; exact ⟨rest, by simp⟩
  · intro w f h1
    rw [hw] at h1; rw [e6]
    split at h1
    · cases h1; simp
    · simp [h.owners w f h1]
  · intro w f w' f' h1 h2 h3
    rw [hw] at h1 h2
    split at h1 <;> split at h2
    · subst_vars; rfl
    · cases h1; exact absurd (by have := h.owners w' f' h2; rw [← h3] at this; exact this) hcs
    · cases h2; exact absurd (by have := h.owners w f h1; rw [h3] at this; exact this) hcs
    · exact h.single w f w' f' h1 h2 h3
  · intro c' h1
    rw [e3] at h1
    rw [hc, if_neg (by rintro rfl; exact hcr h1)]
    exact h.inboxed c' (by simp [hin, h1])
  · intro w h1
    rw [e4] at h1
    obtain ⟨f, h2, h3, h4, k', r, h5, h6⟩ := h.out w h1
    refine ⟨f, grow w f h2, h3, h4, k', r, ?_, h6⟩
    rw [hc, if_neg]; exact h5
    intro e; rw [e, hk] at h5; cases h5; exact hnans r h6
  · intro w f h1 h2 h3
    rw [hw] at h1
    split at h1
    · cases h1; cases h3
    · obtain ⟨h4, h5, k', r, h6, h7⟩ := h.dead w f h1 hup h3
      refine ⟨h4, h5, k', r, ?_, h7⟩
      rw [hc, if_neg]; exact h6
      intro e; rw [e, hk] at h6; cases h6; exact hnans r h7

theorem setPhase_same {s : Server D V} {c : Nat} {k : Client D V} (hk : s.clients c = some k)
    {p : Phase V} (hp : k.phase = p) : s.setPhase c k p = s := by
  subst hp
  have : upd s.clients c (some k) = s.clients := by
    funext c'; simp only [upd]; split
    · subst_vars; exact hk.symm
    · rfl
  cases k; cases s; simp [Server.setPhase] at *; exact this

/-- The app panics while it builds the diagram of the request that it has taken. -/
theorem Inv.crash {build : D → Build V} {s : Server D V} (h : Inv build s) {c : Nat}
    {rest : List Nat} (hup : s.up = true) (hin : s.inbox = c :: rest) :
    Inv build (crash { s with inbox := rest, started := s.started ++ [c] }) := by
  generalize hs' : Server.crash { s with inbox := rest, started := s.started ++ [c] } = s'
  have hw : ∀ w, s'.workflows w = (s.workflows w).map fun f =>
      { f with alive := false, outcome := f.outcome.or (some .disposed) } := by
    subst hs'; intro w; rfl
  have hc : ∀ c, s'.clients c = (s.clients c).map fun k =>
      match k.phase with
      | .queued => { k with phase := .answered .internal }
      | _ => k := by
    subst hs'; intro w; rfl
  have e1 : s'.arrived = s.arrived := by subst hs'; rfl
  have e2 : s'.made = s.made := by subst hs'; rfl
  have e3 : s'.inbox = [] := by subst hs'; rfl
  have e4 : s'.outbox = [] := by subst hs'; rfl
  have e5 : s'.accepted = s.accepted := by subst hs'; rfl
  have e6 : s'.started = s.started ++ [c] := by subst hs'; rfl
  have e7 : s'.up = false := by subst hs'; rfl
  clear hs'
  have back : ∀ w f', s'.workflows w = some f' → ∃ f, s.workflows w = some f ∧
      f'.owner = f.owner := by
    intro w f' hf'
    rw [hw] at hf'
    cases hsw : s.workflows w with
    | none => simp [hsw] at hf'
    | some f => rw [hsw] at hf'; cases hf'; exact ⟨f, rfl, rfl⟩
  have cback : ∀ c' k', s'.clients c' = some k' → (s.clients c' = some k' ∧ k'.phase ≠ .queued) ∨
      k'.phase = .answered .internal := by
    intro c' k' hk'
    rw [hc] at hk'
    cases hsc : s.clients c' with
    | none => simp [hsc] at hk'
    | some k =>
      rw [hsc] at hk'
      simp only [Option.map_some, Option.some.injEq] at hk'
      split at hk'
      · subst hk'; exact .inr rfl
      · subst hk'; rename_i hne; exact .inl ⟨rfl, hne⟩
  have grow : ∀ w f, s.workflows w = some f → ∃ f', s'.workflows w = some f' ∧
      f'.owner = f.owner ∧ f'.diagram = f.diagram ∧ f'.input = f.input ∧
      f'.complete = f.complete ∧ ∀ o, f.outcome = some o → f'.outcome = some o := by
    intro w f hf
    rw [hw, hf]
    refine ⟨_, rfl, rfl, rfl, rfl, rfl, ?_⟩
    intro o ho; simp [ho]
  constructor
  · intro c' hc'
    rw [e1] at hc'; rw [hc, h.range c' hc']; rfl
  · intro w hw'
    rw [e2] at hw'; rw [hw, h.wrange w hw']; rfl
  · intro c' k' w h1 h2
    rcases cback c' k' h1 with ⟨h3, _⟩ | h3
    · obtain ⟨f, g1, ⟨g2, g3, g4⟩, g5, _⟩ := h.waits c' k' w h3 h2
      obtain ⟨f', i1, i2, i3, i4, i5, _⟩ := grow w f g1
      exact ⟨f', i1, ⟨i2.trans g2, i3.trans g3, i4.trans g4⟩, i5.trans g5, by simp [e7]⟩
    · simp [Holds, h3] at h2
  · intro c' k' w r h1 h2
    rcases cback c' k' h1 with ⟨h3, _⟩ | h3
    · obtain ⟨f, o, g1, g2, g3⟩ := h.rel c' k' w r h3 h2
      obtain ⟨f', i1, _, _, _, _, i6⟩ := grow w f g1
      exact ⟨f', o, i1, i6 o g2, g3⟩
    · simp [h3] at h2
  · intro c' k' r h1 h2
    rcases cback c' k' h1 with ⟨h3, _⟩ | h3
    · exact (h.ans c' k' r h3 h2).mono (fun _ => e7) grow
    · rw [h3] at h2; cases h2; exact .inr (.inr ⟨e7, rfl⟩)
  · intro c' k' h1 h2
    rcases cback c' k' h1 with ⟨_, h3⟩ | h3
    · exact absurd h2 h3
    · rw [h3] at h2; cases h2
  · intro c' h1
    rw [e5] at h1
    obtain ⟨k, g1, g2⟩ := h.acc c' h1
    rw [hc, g1]
    refine ⟨_, rfl, ?_⟩
    dsimp only
    split
    · simp
    · exact g2
  · rw [e5]; exact h.nodup
  · intro hu; rw [e7] at hu; cases hu
  · rw [e5, e6, h.order hup, hin]; exact ⟨rest, by simp⟩
  · intro w f h1
    obtain ⟨f0, g1, g2⟩ := back w f h1
    rw [e6, g2]; simp [h.owners w f0 g1]
  · intro w f w' f' h1 h2 h3
    obtain ⟨f0, g1, g2⟩ := back w f h1
    obtain ⟨f1, i1, i2⟩ := back w' f' h2
    exact h.single w f0 w' f1 g1 i1 (by rw [← g2, ← i2]; exact h3)
  · intro c' h1; rw [e3] at h1; cases h1
  · intro w h1; rw [e4] at h1; cases h1
  · intro w f _ h2; rw [e7] at h2; cases h2

theorem Inv.execute {build : D → Build V} {s : Server D V} (h : Inv build s)
    (hup : s.up = true) : Inv build (execute build s) := by
  simp only [Server.execute]
  split
  · exact h
  · rename_i c rest hin
    split
    · exact h
    · rename_i k hk
      split
      · exact h.crash hup hin
      · rename_i e hb
        split
        · rename_i hg
          have hg' : k.phase = .gone := by
            unfold Client.gone at hg; split at hg <;> simp_all
          have := h.take (complete := false) (p := .gone) hup hin hk (.inl ⟨hg', rfl⟩)
          rwa [setPhase_same (by exact hk) hg'] at this
        · rename_i hg
          have hg' : k.phase ≠ .gone := by
            intro e; simp [Client.gone, e] at hg
          exact h.take hup hin hk (.inr ⟨hg', .inr ⟨e, hb, rfl⟩⟩)
      · split
        · rename_i hg
          have hg' : k.phase = .gone := by
            unfold Client.gone at hg; split at hg <;> simp_all
          have := h.take (complete := true) (p := .gone) hup hin hk (.inl ⟨hg', rfl⟩)
          rwa [setPhase_same (by exact hk) hg'] at this
        · rename_i hg
          have hg' : k.phase ≠ .gone := by
            intro e; simp [Client.gone, e] at hg
          exact h.take hup hin hk (.inr ⟨hg', .inl ⟨rfl, rfl⟩⟩)

theorem Inv.arrive {build : D → Build V} {s : Server D V} (h : Inv build s) (d : D) (i : V) :
    Inv build (step build s (.arrive d i)) := by
  have fresh : ∀ c k, s.clients c = some k → c ≠ s.arrived := by
    rintro c k hk rfl; rw [h.range _ (Nat.le_refl _)] at hk; cases hk
  have hc : ∀ c, (step build s (.arrive d i)).clients c =
      if c = s.arrived then some ⟨d, i, .sending⟩ else s.clients c := by
    intro c; simp [step, upd]
  have cback : ∀ c k, (step build s (.arrive d i)).clients c = some k → k.phase ≠ .sending →
      s.clients c = some k := by
    intro c k hk hn
    rw [hc] at hk
    split at hk
    · cases hk; exact absurd rfl hn
    · exact hk
  have cfwd : ∀ c k, s.clients c = some k → (step build s (.arrive d i)).clients c = some k := by
    intro c k hk; rw [hc, if_neg (fresh c k hk)]; exact hk
  refine ⟨?_, h.wrange, ?_, ?_, ?_, ?_, ?_, h.nodup, h.order, h.starts, h.owners, h.single, ?_, ?_,
    ?_⟩
  · intro c hcn
    have : s.arrived + 1 ≤ c := hcn
    rw [hc, if_neg (by omega)]; exact h.range c (by omega)
  · intro c k w h1 h2
    exact h.waits c k w (cback c k h1 (by intro e; simp [Holds, e] at h2)) h2
  · intro c k w r h1 h2
    exact h.rel c k w r (cback c k h1 (by simp [h2])) h2
  · intro c k r h1 h2
    exact h.ans c k r (cback c k h1 (by simp [h2])) h2
  · intro c k h1 h2
    exact h.queued c k (cback c k h1 (by simp [h2])) h2
  · intro c h1
    obtain ⟨k, g1, g2⟩ := h.acc c h1; exact ⟨k, cfwd c k g1, g2⟩
  · intro c h1
    obtain ⟨k, g1, g2⟩ := h.inboxed c h1; exact ⟨k, cfwd c k g1, g2⟩
  · intro w h1
    obtain ⟨f, h2, h3, h4, k, r, h5, h6⟩ := h.out w h1
    exact ⟨f, h2, h3, h4, k, r, cfwd _ k h5, h6⟩
  · intro w f h1 h2 h3
    obtain ⟨h4, h5, k, r, h6, h7⟩ := h.dead w f h1 h2 h3
    exact ⟨h4, h5, k, r, cfwd _ k h6, h7⟩

theorem Inv.accept {build : D → Build V} {s : Server D V} (h : Inv build s) (c : Nat) :
    Inv build (step build s (.accept c)) := by
  simp only [step]
  split
  · exact h
  · rename_i k hk
    split
    · rename_i hph
      split
      · rename_i hup
        split
        · have hna : c ∉ s.accepted := by
            intro hca
            obtain ⟨k', g1, g2⟩ := h.acc c hca
            rw [hk] at g1; cases g1; exact g2 hph
          have hc : ∀ c', (s.setPhase c k .queued).clients c' =
              if c' = c then some { k with phase := .queued } else s.clients c' := by
            intro c'; simp [Server.setPhase, upd]
          have cback : ∀ c' k', (s.setPhase c k .queued).clients c' = some k' →
              k'.phase ≠ .queued → s.clients c' = some k' := by
            intro c' k' h1 h2
            rw [hc] at h1
            split at h1
            · cases h1; exact absurd rfl h2
            · exact h1
          have cans : ∀ c' k' r, s.clients c' = some k' → k'.phase = .answered r →
              (s.setPhase c k .queued).clients c' = some k' := by
            intro c' k' r h1 h2
            rw [hc, if_neg]; exact h1
            rintro rfl; rw [hk] at h1; cases h1; rw [hph] at h2; cases h2
          refine ⟨?_, h.wrange, ?_, ?_, ?_, ?_, ?_, ?_, ?_, ?_, h.owners, h.single, ?_, ?_, ?_⟩
          · intro c' hc'
            have hcn : s.clients c' = none := h.range c' hc'
            show (s.setPhase c k .queued).clients c' = none
            rw [hc, if_neg]; exact hcn
            rintro rfl; rw [hk] at hcn; cases hcn
          · intro c' k' w h1 h2
            exact h.waits c' k' w (cback c' k' h1 (by intro e; simp [Holds, e] at h2)) h2
          · intro c' k' w r h1 h2
            exact h.rel c' k' w r (cback c' k' h1 (by simp [h2])) h2
          · intro c' k' r h1 h2
            exact h.ans c' k' r (cback c' k' h1 (by simp [h2])) h2
          · intro c' k' h1 h2
            refine ⟨hup, ?_⟩
            have h1' : (s.setPhase c k .queued).clients c' = some k' := h1
            rw [hc] at h1'
            split at h1'
            · subst_vars; simp
            · simp [(h.queued c' k' h1' h2).2]
          · intro c' h1
            show ∃ k', (s.setPhase c k .queued).clients c' = some k' ∧ _
            rw [hc]
            split
            · exact ⟨_, rfl, by simp⟩
            · rename_i hne
              exact h.acc c' (by simpa [hne] using h1)
          · show (s.accepted ++ [c]).Nodup
            rw [List.nodup_append]
            refine ⟨h.nodup, by simp, ?_⟩
            intro a ha b hb e
            simp at hb; subst hb; subst e; exact hna ha
          · intro _
            show s.accepted ++ [c] = s.started ++ (s.inbox ++ [c])
            rw [h.order hup]; simp
          · exact h.starts.trans ⟨[c], rfl⟩
          · intro c' h1
            show ∃ k', (s.setPhase c k .queued).clients c' = some k' ∧ _
            rw [hc]
            split
            · exact ⟨_, rfl, .inl rfl⟩
            · rename_i hne
              exact h.inboxed c' (by simpa [hne] using h1)
          · intro w h1
            obtain ⟨f, h2, h3, h4, k', r, h5, h6⟩ := h.out w h1
            exact ⟨f, h2, h3, h4, k', r, cans _ k' r h5 h6, h6⟩
          · intro w f h1 h2 h3
            obtain ⟨h4, h5, k', r, h6, h7⟩ := h.dead w f h1 h2 h3
            exact ⟨h4, h5, k', r, cans _ k' r h6 h7, h7⟩
        · exact h
      · rename_i hup
        refine h.move hk (by simp [hph]) (by simp [hph]) (by simp) (by simp) (by simp [Holds])
          (by simp) ?_
        intro r hr; cases hr
        exact .inr (.inr ⟨by simpa using hup, rfl⟩)
    · exact h

theorem Inv.settle {build : D → Build V} {s : Server D V} (h : Inv build s) (w : Nat)
    (o : Outcome V) : Inv build (step build s (.settle w o)) := by
  simp only [step]
  split
  · exact h
  · rename_i f hf
    split
    · rename_i hcond
      simp only [Bool.and_eq_true] at hcond
      obtain ⟨⟨hcm, hal⟩, hno⟩ := hcond
      generalize hs' : ({ s with workflows := upd s.workflows w (some { f with outcome := some o }) }
        : Server D V) = s'
      have hw : ∀ w', s'.workflows w' = if w' = w then some { f with outcome := some o }
          else s.workflows w' := by subst hs'; intro w'; simp [upd]
      have grow : ∀ w' f', s.workflows w' = some f' → ∃ f'', s'.workflows w' = some f'' ∧
          f''.owner = f'.owner ∧ f''.diagram = f'.diagram ∧ f''.input = f'.input ∧
          f''.complete = f'.complete ∧ (∀ o, f'.outcome = some o → f''.outcome = some o) ∧
          f''.alive = f'.alive := by
        intro w' f' h1
        rw [hw]; split
        · subst_vars; rw [hf] at h1; cases h1
          refine ⟨_, rfl, rfl, rfl, rfl, rfl, ?_, rfl⟩
          intro o' ho'; rw [ho'] at hno; cases hno
        · exact ⟨f', h1, rfl, rfl, rfl, rfl, fun _ => id, rfl⟩
      have back : ∀ w' f'', s'.workflows w' = some f'' → ∃ f', s.workflows w' = some f' ∧
          f''.owner = f'.owner ∧ f''.complete = f'.complete ∧ f''.alive = f'.alive ∧
          (f'.outcome.isSome = true → f''.outcome.isSome = true) := by
        intro w' f'' h1
        rw [hw] at h1; split at h1
        · subst_vars; cases h1; exact ⟨f, hf, rfl, rfl, rfl, fun _ => rfl⟩
        · exact ⟨f'', h1, rfl, rfl, rfl, id⟩
      have ec : s'.clients = s.clients := by subst hs'; rfl
      have eu : s'.up = s.up := by subst hs'; rfl
      have e1 : s'.arrived = s.arrived := by subst hs'; rfl
      have e2 : s'.made = s.made := by subst hs'; rfl
      have e3 : s'.inbox = s.inbox := by subst hs'; rfl
      have e4 : s'.outbox = s.outbox := by subst hs'; rfl
      have e5 : s'.accepted = s.accepted := by subst hs'; rfl
      have e6 : s'.started = s.started := by subst hs'; rfl
      clear hs'
      constructor
      · rw [ec, e1]; exact h.range
      · intro w' hw'
        rw [e2] at hw'
        have := h.wrange w' hw'
        rw [hw, if_neg]; exact this
        rintro rfl; rw [hf] at this; cases this
      · intro c k w' h1 h2
        rw [ec] at h1
        obtain ⟨f', g1, ⟨g2, g3, g4⟩, g5, g6⟩ := h.waits c k w' h1 h2
        obtain ⟨f'', i1, i2, i3, i4, i5, _, i7⟩ := grow w' f' g1
        exact ⟨f'', i1, ⟨i2.trans g2, i3.trans g3, i4.trans g4⟩, i5.trans g5,
          by rw [eu, i7]; exact g6⟩
      · intro c k w' r h1 h2
        rw [ec] at h1
        obtain ⟨f', o', g1, g2, g3⟩ := h.rel c k w' r h1 h2
        obtain ⟨f'', i1, _, _, _, _, i6, _⟩ := grow w' f' g1
        exact ⟨f'', o', i1, i6 o' g2, g3⟩
      · intro c k r h1 h2
        rw [ec] at h1
        refine (h.ans c k r h1 h2).mono (by rw [eu]; exact id) ?_
        intro w' f' g1
        obtain ⟨f'', i1, i2, i3, i4, i5, i6, _⟩ := grow w' f' g1
        exact ⟨f'', i1, i2, i3, i4, i5, i6⟩
      · rw [ec, eu, e3]; exact h.queued
      · rw [ec, e5]; exact h.acc
      · rw [e5]; exact h.nodup
      · rw [eu, e5, e6, e3]; exact h.order
      · rw [e5, e6]; exact h.starts
      · intro w' f' h1
        obtain ⟨f0, g1, g2, _⟩ := back w' f' h1
        rw [e6, g2]; exact h.owners w' f0 g1
      · intro w1 f1 w2 f2 h1 h2 h3
        obtain ⟨a, a1, a2, _⟩ := back w1 f1 h1
        obtain ⟨b, b1, b2, _⟩ := back w2 f2 h2
        exact h.single w1 a w2 b a1 b1 (by rw [← a2, ← b2]; exact h3)
      · rw [ec, e3]; exact h.inboxed
      · intro w' h1
        rw [e4] at h1
        obtain ⟨f', h2, h3, h4, k, r, h5, h6⟩ := h.out w' h1
        obtain ⟨f'', i1, i2, i3, i4, i5, i6, _⟩ := grow w' f' h2
        obtain ⟨o', ho'⟩ := Option.isSome_iff_exists.mp h4
        exact ⟨f'', i1, i5.trans h3, by rw [i6 o' ho']; rfl, k, r, by rw [ec, i2]; exact h5, h6⟩
      · intro w' f'' h1 h2 h3
        obtain ⟨f', g1, g2, g3, g4, g5⟩ := back w' f'' h1
        rw [eu] at h2; rw [g4] at h3
        obtain ⟨h4, h5, k, r, h6, h7⟩ := h.dead w' f' g1 h2 h3
        exact ⟨g3.trans h4, g5 h5, k, r, by rw [ec, g2]; exact h6, h7⟩
    · exact h

theorem Inv.deliver {build : D → Build V} {s : Server D V} (h : Inv build s) (c : Nat) :
    Inv build (step build s (.deliver c)) := by
  simp only [step]
  split
  · exact h
  · rename_i k hk
    split
    · rename_i w hph
      split
      · exact h
      · rename_i o ho
        obtain ⟨f, g1, g2, g3, g4⟩ := h.waits c k w hk (.inl hph)
        rw [g1] at ho
        refine h.move hk (by simp [hph]) (by simp [hph]) (by simp) (by simp) ?_ ?_ (by simp)
        · intro w' hw'
          simp [Holds] at hw'; subst hw'
          exact ⟨f, g1, g2, g3, g4⟩
        · intro w' r hr
          cases hr
          exact ⟨f, o, g1, ho, rfl⟩
    · exact h

theorem Inv.release {build : D → Build V} {s : Server D V} (h : Inv build s) (c : Nat) :
    Inv build (step build s (.release c)) := by
  simp only [step]
  split
  · exact h
  · rename_i k hk
    split
    · rename_i w r hph
      obtain ⟨f, g1, g2, g3, _⟩ := h.waits c k w hk (.inr ⟨r, hph⟩)
      obtain ⟨f', o, i1, i2, i3⟩ := h.rel c k w r hk hph
      rw [g1] at i1; cases i1
      have hm : Inv build (s.setPhase c k (.answered r)) := by
        refine h.move hk (by simp [hph]) (by simp [hph]) (by simp) (by simp) (by simp [Holds])
          (by simp) ?_
        intro r' hr'; cases hr'
        exact .inr (.inl ⟨w, f, o, g1, g2, g3, i2, i3⟩)
      split
      · split
        · refine ⟨hm.range, hm.wrange, hm.waits, hm.rel, hm.ans, hm.queued, hm.acc, hm.nodup,
            hm.order, hm.starts, hm.owners, hm.single, hm.inboxed, ?_, hm.dead⟩
          intro w' h1
          rcases List.mem_append.mp h1 with h1 | h1
          · exact hm.out w' h1
          · simp at h1; subst h1
            refine ⟨f, g1, g3, by rw [i2]; rfl, { k with phase := .answered r }, r, ?_, rfl⟩
            rw [g2.1]; exact upd_self _ _ _
        · exact h
      · exact hm
    · exact h

theorem Inv.sweep {build : D → Build V} {s : Server D V} (h : Inv build s) :
    Inv build (step build s .sweep) := by
  simp only [step]
  split
  · rename_i hup
    generalize hs' : ({ s with
        outbox := []
        workflows := fun w => (s.workflows w).map fun f =>
          if s.outbox.contains w then { f with alive := false } else f } : Server D V) = s'
    have hw : ∀ w, s'.workflows w = (s.workflows w).map fun f =>
          if s.outbox.contains w then { f with alive := false } else f := by subst hs'; intro w; rfl
    have grow : ∀ w f, s.workflows w = some f → ∃ f', s'.workflows w = some f' ∧
        f'.owner = f.owner ∧ f'.diagram = f.diagram ∧ f'.input = f.input ∧
        f'.complete = f.complete ∧ f'.outcome = f.outcome ∧
        (w ∉ s.outbox → f'.alive = f.alive) := by
      intro w f h1
      rw [hw, h1]
      refine ⟨_, rfl, ?_⟩
      split <;> simp_all
    have back : ∀ w f', s'.workflows w = some f' → ∃ f, s.workflows w = some f ∧
        f'.owner = f.owner ∧ f'.complete = f.complete ∧ f'.outcome = f.outcome ∧
        (w ∉ s.outbox → f'.alive = f.alive) := by
      intro w f' h1
      rw [hw] at h1
      cases hsw : s.workflows w with
      | none => simp [hsw] at h1
      | some f =>
        rw [hsw] at h1; cases h1
        refine ⟨f, rfl, ?_⟩
        split <;> simp_all
    have ec : s'.clients = s.clients := by subst hs'; rfl
    have eu : s'.up = s.up := by subst hs'; rfl
    have e1 : s'.arrived = s.arrived := by subst hs'; rfl
    have e2 : s'.made = s.made := by subst hs'; rfl
    have e3 : s'.inbox = s.inbox := by subst hs'; rfl
    have e4 : s'.outbox = [] := by subst hs'; rfl
    have e5 : s'.accepted = s.accepted := by subst hs'; rfl
    have e6 : s'.started = s.started := by subst hs'; rfl
    clear hs'
    constructor
    · rw [ec, e1]; exact h.range
    · intro w hw'
      rw [e2] at hw'
      rw [hw, h.wrange w hw']; rfl
    · intro c k w h1 h2
      rw [ec] at h1
      obtain ⟨f, g1, ⟨g2, g3, g4⟩, g5, g6⟩ := h.waits c k w h1 h2
      obtain ⟨f', i1, i2, i3, i4, i5, _, i7⟩ := grow w f g1
      refine ⟨f', i1, ⟨i2.trans g2, i3.trans g3, i4.trans g4⟩, i5.trans g5, ?_⟩
      intro _
      rw [i7]
      · exact g6 hup
      · intro ho
        obtain ⟨f0, o1, _, _, k', r, o5, o6⟩ := h.out w ho
        rw [g1] at o1; cases o1
        rw [g2, h1] at o5; cases o5
        simp [Holds, o6] at h2
    · intro c k w r h1 h2
      rw [ec] at h1
      obtain ⟨f, o, g1, g2, g3⟩ := h.rel c k w r h1 h2
      obtain ⟨f', i1, _, _, _, _, i6, _⟩ := grow w f g1
      exact ⟨f', o, i1, i6.trans g2, g3⟩
    · intro c k r h1 h2
      rw [ec] at h1
      refine (h.ans c k r h1 h2).mono (by rw [eu]; exact id) ?_
      intro w f g1
      obtain ⟨f', i1, i2, i3, i4, i5, i6, _⟩ := grow w f g1
      exact ⟨f', i1, i2, i3, i4, i5, fun o ho => i6.trans ho⟩
    · rw [ec, eu, e3]; exact h.queued
    · rw [ec, e5]; exact h.acc
    · rw [e5]; exact h.nodup
    · rw [eu, e5, e6, e3]; exact h.order
    · rw [e5, e6]; exact h.starts
    · intro w f h1
      obtain ⟨f0, g1, g2, _⟩ := back w f h1
      rw [e6, g2]; exact h.owners w f0 g1
    · intro w1 f1 w2 f2 h1 h2 h3
      obtain ⟨a, a1, a2, _⟩ := back w1 f1 h1
      obtain ⟨b, b1, b2, _⟩ := back w2 f2 h2
      exact h.single w1 a w2 b a1 b1 (by rw [← a2, ← b2]; exact h3)
    · rw [ec, e3]; exact h.inboxed
    · intro w h1; rw [e4] at h1; cases h1
    · intro w f' h1 _ h3
      obtain ⟨f, g1, g2, g3, g4, g5⟩ := back w f' h1
      rw [g2, g3, g4, ec]
      by_cases ho : w ∈ s.outbox
      · obtain ⟨f0, o1, o2, o3, k, r, o5, o6⟩ := h.out w ho
        rw [g1] at o1; cases o1
        exact ⟨o2, o3, k, r, o5, o6⟩
      · exact h.dead w f g1 hup ((g5 ho).symm.trans h3)
  · exact h

theorem Inv.leave {build : D → Build V} {s : Server D V} (h : Inv build s) (c : Nat) :
    Inv build (step build s (.leave c)) := by
  simp only [step]
  split
  · exact h
  · rename_i k hk
    split
    · exact h
    · rename_i hne
      exact h.move hk hne (fun _ => rfl) (by simp) (by simp) (by simp [Holds]) (by simp) (by simp)

theorem Inv.step {build : D → Build V} {s : Server D V} (h : Inv build s) (e : Ev D V) :
    Inv build (step build s e) := by
  cases e with
  | arrive d i => exact h.arrive d i
  | accept c => exact h.accept c
  | execute =>
    simp only [Server.step]
    split
    · rename_i hup; exact h.execute hup
    · exact h
  | settle w o => exact h.settle w o
  | deliver c => exact h.deliver c
  | release c => exact h.release c
  | sweep => exact h.sweep
  | leave c => exact h.leave c
  | tick => exact h

theorem Inv.run {build : D → Build V} {s : Server D V} (h : Inv build s) (es : List (Ev D V)) :
    Inv build (run build s es) := by
  induction es generalizing s with
  | nil => exact h
  | cons e es ih => exact ih (h.step e)

theorem Reachable.inv {build : D → Build V} {s : Server D V} (h : Reachable build s) :
    Inv build s := by
  obtain ⟨es, rfl⟩ := h; exact (inv_initial build).run es

end Verif.Server
