import Verif.Server.Lemmas
/-
What a single event does to a request and to a workflow.
-/
namespace Verif.Server

variable {D V : Type}

/-- How the handler of `c` can go on. -/
inductive Moves (build : D → Build V) (s : Server D V) (e : Ev D V) (c : Nat) :
    Phase V → Phase V → Prop where
  | same (p) : Moves build s e c p p
  | accepted : s.up = true → Moves build s e c .sending .queued
  | down : s.up = false → Moves build s e c .sending (.answered .internal)
  | started : s.workflows s.made = none → Moves build s e c .queued (.awaiting s.made)
  | refused (r) : Moves build s e c .queued (.answered r)
  | delivered (w o) : (s.workflows w).bind (·.outcome) = some o →
      Moves build s e c (.awaiting w) (.releasing w (respond o))
  | released (w r) : (s.up = true → w ∈ (step build s e).outbox) →
      Moves build s e c (.releasing w r) (.answered r)
  | left (p) : e = .leave c → (∀ r, p ≠ .answered r) → Moves build s e c p .gone

theorem setPhase_at (s : Server D V) (c : Nat) (k : Client D V) (p : Phase V) (c' : Nat) :
    (s.setPhase c k p).clients c' = if c' = c then some { k with phase := p } else s.clients c' := by
  simp [Server.setPhase, upd]

theorem step_client {build : D → Build V} {s : Server D V} (h : Inv build s) (e : Ev D V) {c : Nat}
    {k : Client D V} (hk : s.clients c = some k) :
    ∃ k', (step build s e).clients c = some k' ∧ k'.diagram = k.diagram ∧ k'.input = k.input ∧
      Moves build s e c k.phase k'.phase := by
  have stay : ∀ s' : Server D V, s'.clients c = s.clients c →
      ∃ k', s'.clients c = some k' ∧ k'.diagram = k.diagram ∧ k'.input = k.input ∧
        Moves build s e c k.phase k'.phase :=
    fun s' hs' => ⟨k, hs'.trans hk, rfl, rfl, .same _⟩
  have move : ∀ (s' : Server D V) (p : Phase V), Moves build s e c k.phase p →
      (s'.setPhase c k p).clients c = some { k with phase := p } →
      ∃ k', (s'.setPhase c k p).clients c = some k' ∧ k'.diagram = k.diagram ∧
        k'.input = k.input ∧ Moves build s e c k.phase k'.phase :=
    fun s' p hp hs => ⟨_, hs, rfl, rfl, hp⟩
  cases e with
  | arrive d i =>
    refine stay _ ?_
    simp only [step]
    rw [upd_other]; rintro rfl; rw [h.range _ (Nat.le_refl _)] at hk; cases hk
  | accept c' =>
    by_cases hcc : c' = c
    · subst hcc
      simp only [step, hk]
      split
      · rename_i hph
        split
        · rename_i hup
          split
          · exact ⟨{ k with phase := .queued }, upd_self _ _ _, rfl, rfl, by
              rw [hph]; exact .accepted hup⟩
          · exact stay _ rfl
        · rename_i hup
          refine ⟨{ k with phase := .answered .internal }, upd_self _ _ _, rfl, rfl, ?_⟩
          rw [hph]; exact .down (by simpa using hup)
      · exact stay _ rfl
    · refine stay _ ?_
      simp only [step]
      split
      · rfl
      · split
        · split
          · split
            · exact upd_other _ _ (Ne.symm hcc)
            · rfl
          · exact upd_other _ _ (Ne.symm hcc)
        · rfl
  | execute =>
    simp only [step]
    split
    · rename_i hup
      simp only [Server.execute]
      split
      · exact stay _ rfl
      · rename_i c' rest hin
        obtain ⟨k0, hk0, hph⟩ := h.inboxed c' (by simp [hin])
        rw [hk0]
        simp only
        split
        · simp only [Server.crash, hk, Option.map_some]
          split
          · rename_i hq; exact ⟨_, rfl, rfl, rfl, by rw [hq]; exact .refused _⟩
          · exact ⟨_, rfl, rfl, rfl, .same _⟩
        · split
          · exact stay _ rfl
          · rename_i hg
            have hq : k0.phase = .queued := by
              rcases hph with e | e
              · exact e
              · simp [Client.gone, e] at hg
            by_cases hcc : c = c'
            · subst hcc; rw [hk] at hk0; cases hk0
              exact ⟨_, upd_self _ _ _, rfl, rfl, by rw [hq]; exact .refused _⟩
            · exact stay _ (upd_other _ _ hcc)
        · split
          · exact stay _ rfl
          · rename_i hg
            have hq : k0.phase = .queued := by
              rcases hph with e | e
              · exact e
              · simp [Client.gone, e] at hg
            by_cases hcc : c = c'
            · subst hcc; rw [hk] at hk0; cases hk0
              exact ⟨_, upd_self _ _ _, rfl, rfl, by
                rw [hq]; exact .started (h.wrange _ (Nat.le_refl _))⟩
            · exact stay _ (upd_other _ _ hcc)
    · exact stay _ rfl
  | settle w o =>
    refine stay _ ?_
    simp only [step]
    split
    · rfl
    · split <;> rfl
  | deliver c' =>
    by_cases hcc : c' = c
    · subst hcc
      simp only [step, hk]
      split
      · rename_i w hph
        split
        · exact stay _ rfl
        · rename_i o ho
          exact ⟨_, upd_self _ _ _, rfl, rfl, by rw [hph]; exact .delivered w o ho⟩
      · exact stay _ rfl
    · refine stay _ ?_
      simp only [step]
      split
      · rfl
      · split
        · split
          · rfl
          · exact upd_other _ _ (Ne.symm hcc)
        · rfl
  | release c' =>
    by_cases hcc : c' = c
    · subst hcc
      have hout : ∀ w r, k.phase = .releasing w r → s.up = true → s.outbox.length < capacity →
          w ∈ (step build s (.release c')).outbox := by
        intro w r h1 h2 h3
        simp [step, hk, h1, h2, h3]
      simp only [step, hk]
      split
      · rename_i w r hph
        split
        · rename_i hup
          split
          · rename_i hcap
            refine ⟨{ k with phase := .answered r }, upd_self _ _ _, rfl, rfl, ?_⟩
            rw [hph]; exact .released w r (fun hu => hout w r hph hu hcap)
          · exact stay _ rfl
        · rename_i hup
          refine ⟨{ k with phase := .answered r }, upd_self _ _ _, rfl, rfl, ?_⟩
          rw [hph]; exact .released w r (fun hu => absurd hu hup)
      · exact stay _ rfl
    · refine stay _ ?_
      simp only [step]
      split
      · rfl
      · split
        · split
          · split
            · exact upd_other _ _ (Ne.symm hcc)
            · rfl
          · exact upd_other _ _ (Ne.symm hcc)
        · rfl
  | sweep =>
    refine stay _ ?_
    simp only [step]; split <;> rfl
  | leave c' =>
    by_cases hcc : c' = c
    · subst hcc
      simp only [step, hk]
      split
      · exact stay _ rfl
      · rename_i hne
        exact ⟨_, upd_self _ _ _, rfl, rfl, .left _ rfl hne⟩
    · refine stay _ ?_
      simp only [step]
      split
      · rfl
      · split
        · rfl
        · exact upd_other _ _ (Ne.symm hcc)
  | tick => exact stay _ rfl

/-- A server that is down stays down. -/
theorem step_up {build : D → Build V} {s : Server D V} {e : Ev D V}
    (h : (step build s e).up = true) : s.up = true := by
  cases hu : s.up with
  | true => rfl
  | false =>
    have : (step build s e).up = s.up := by
      cases e <;> simp only [step, hu] <;> repeat' (first | rfl | exact hu | split)
    rw [this, hu] at h; cases h

theorem run_up {build : D → Build V} {es : List (Ev D V)} {s : Server D V}
    (h : (run build s es).up = true) : s.up = true := by
  induction es generalizing s with
  | nil => exact h
  | cons e es ih => exact step_up (ih h)

/-- What becomes of a workflow. -/
theorem step_workflow {build : D → Build V} {s : Server D V} (h : Inv build s) (e : Ev D V)
    {w : Nat} {f : Workflow D V} (hf : s.workflows w = some f)
    (hup : (step build s e).up = true) :
    ∃ f', (step build s e).workflows w = some f' ∧ f'.owner = f.owner ∧ f'.diagram = f.diagram ∧
      f'.input = f.input ∧ f'.complete = f.complete ∧
      (f.outcome = none → f'.outcome = none ∨ ∃ o, e = .settle w o) ∧
      (∀ o, f.outcome = some o → f'.outcome = some o) ∧
      (f.alive = true → f'.alive = true ∨ w ∈ s.outbox) ∧
      (f'.alive = true → f.alive = true ∧
        (w ∈ s.outbox → w ∈ (step build s e).outbox)) := by
  have hfresh : w ≠ s.made := by
    rintro rfl; rw [h.wrange _ (Nat.le_refl _)] at hf; cases hf
  have stay : ∀ s' : Server D V, s'.workflows w = s.workflows w →
      (∀ x, x ∈ s.outbox → x ∈ s'.outbox) →
      ∃ f', s'.workflows w = some f' ∧ f'.owner = f.owner ∧ f'.diagram = f.diagram ∧
      f'.input = f.input ∧ f'.complete = f.complete ∧
      (f.outcome = none → f'.outcome = none ∨ ∃ o, e = .settle w o) ∧
      (∀ o, f.outcome = some o → f'.outcome = some o) ∧
      (f.alive = true → f'.alive = true ∨ w ∈ s.outbox) ∧
      (f'.alive = true → f.alive = true ∧ (w ∈ s.outbox → w ∈ s'.outbox)) :=
    fun s' hs' ho => ⟨f, hs'.trans hf, rfl, rfl, rfl, rfl, .inl, fun _ => id, .inl,
      fun ha => ⟨ha, ho w⟩⟩
  cases e with
  | arrive d i => exact stay _ rfl (fun _ => id)
  | accept c' =>
    simp only [step]
    repeat' (first | exact stay _ rfl (fun _ => id) | split)
  | execute =>
    simp only [step] at hup ⊢
    split
    · rename_i hu
      rw [if_pos hu] at hup
      simp only [Server.execute] at hup ⊢
      split
      · exact stay _ rfl (fun _ => id)
      · rename_i c' rest hin
        simp only [hin] at hup
        obtain ⟨k0, hk0, hph⟩ := h.inboxed c' (by simp [hin])
        rw [hk0] at hup ⊢
        simp only at hup ⊢
        split
        · rename_i hb; rw [hb] at hup; simp [Server.crash] at hup
        · split <;> exact stay _ (upd_other _ _ hfresh) (fun _ => id)
        · split <;> exact stay _ (upd_other _ _ hfresh) (fun _ => id)
    · exact stay _ rfl (fun _ => id)
  | settle w' o =>
    by_cases hww : w' = w
    · subst hww
      simp only [step, hf]
      split
      · rename_i hcond
        refine ⟨{ f with outcome := some o }, upd_self _ _ _, rfl, rfl, rfl, rfl,
          fun _ => .inr ⟨o, rfl⟩, ?_, .inl, fun ha => ⟨ha, id⟩⟩
        intro o' ho'; simp [ho'] at hcond
      · exact stay _ rfl (fun _ => id)
    · simp only [step]
      split
      · exact stay _ rfl (fun _ => id)
      · split
        · exact stay _ (upd_other _ _ (Ne.symm hww)) (fun _ => id)
        · exact stay _ rfl (fun _ => id)
  | deliver c' =>
    simp only [step]
    repeat' (first | exact stay _ rfl (fun _ => id) | split)
  | release c' =>
    simp only [step]
    repeat' (first | exact stay _ rfl (fun _ => id)
                   | exact stay _ rfl (by simp; intro x hx; exact .inl hx) | split)
  | sweep =>
    simp only [step]
    split
    · refine ⟨_, by simp only [hf]; rfl, ?_⟩
      split
      · rename_i hc; simp at hc; simp [hc]
      · rename_i hc; simp at hc; simp [hc]
    · exact stay _ rfl (fun _ => id)
  | leave c' =>
    simp only [step]
    repeat' (first | exact stay _ rfl (fun _ => id) | split)
  | tick => exact stay _ rfl (fun _ => id)

/-- Where a workflow comes from. -/
theorem step_new {build : D → Build V} {s : Server D V} (h : Inv build s) (e : Ev D V)
    {w : Nat} {f : Workflow D V} (hf : (step build s e).workflows w = some f)
    (hn : s.workflows w = none) :
    (f.complete = false ∧ ∃ x, build f.diagram = .err x) ∨
      ∃ k, (step build s e).clients f.owner = some k ∧
        (k.phase = .awaiting w ∨ k.phase = .gone) := by
  have no : (step build s e).workflows w = none →
      (f.complete = false ∧ ∃ x, build f.diagram = .err x) ∨ ∃ k, (step build s e).clients f.owner = some k ∧
        (k.phase = .awaiting w ∨ k.phase = .gone) := by
    intro h1; rw [h1] at hf; cases hf
  cases e with
  | arrive d i => exact no hn
  | accept c' =>
    refine no ?_
    simp only [step]
    repeat' (first | exact hn | split)
  | execute =>
    simp only [step] at hf ⊢
    by_cases hu : s.up = true
    · rw [if_pos hu] at hf ⊢
      cases hin : s.inbox with
      | nil => simp only [Server.execute, hin, hn] at hf; cases hf
      | cons c' rest =>
        simp only [Server.execute, hin] at hf ⊢
        obtain ⟨k0, hk0, hph⟩ := h.inboxed c' (by simp [hin])
        rw [hk0] at hf ⊢
        simp only at hf ⊢
        have hwm : ∀ b, (Server.spawn { s with inbox := rest, started := s.started ++ [c'] } c' k0
            b).workflows w = some f → w = s.made ∧ f = ⟨c', k0.diagram, k0.input, b, true, none⟩ := by
          intro b hb
          simp only [Server.spawn, upd] at hb
          split at hb
          · rename_i e; cases hb; exact ⟨e, rfl⟩
          · rw [hn] at hb; cases hb
        cases hx : build k0.diagram with
        | panic => rw [hx] at hf; simp [Server.crash, hn] at hf
        | err x =>
          rw [hx] at hf
          simp only at hf
          split at hf
          · obtain ⟨_, rfl⟩ := hwm _ hf; exact .inl ⟨rfl, x, hx⟩
          · obtain ⟨_, rfl⟩ := hwm _ hf; exact .inl ⟨rfl, x, hx⟩
        | ok =>
          rw [hx] at hf
          simp only at hf ⊢
          split at hf
          · rename_i hg
            obtain ⟨_, rfl⟩ := hwm _ hf
            refine .inr ⟨k0, ?_, .inr ?_⟩
            · rw [if_pos hg]; exact hk0
            · unfold Client.gone at hg; split at hg <;> simp_all
          · rename_i hg
            obtain ⟨e, rfl⟩ := hwm _ hf
            refine .inr ⟨{ k0 with phase := .awaiting s.made }, ?_, .inl ?_⟩
            · rw [if_neg hg]; exact upd_self _ _ _
            · rw [e]
    · rw [if_neg hu, hn] at hf; cases hf
  | settle w' o =>
    refine no ?_
    by_cases hww : w' = w
    · subst hww; simp only [step, hn]
    · simp only [step]
      repeat' (first | exact hn | exact (upd_other _ _ (Ne.symm hww)).trans hn | split)
  | deliver c' =>
    refine no ?_
    simp only [step]
    repeat' (first | exact hn | split)
  | release c' =>
    refine no ?_
    simp only [step]
    repeat' (first | exact hn | split)
  | sweep =>
    refine no ?_
    simp only [step]
    split
    · simp [hn]
    · exact hn
  | leave c' =>
    refine no ?_
    simp only [step]
    repeat' (first | exact hn | split)
  | tick => exact no hn

/-- Why a workflow is in the world. -/
def Live (build : D → Build V) (s : Server D V) : Prop :=
  s.up = true → ∀ w f, s.workflows w = some f → f.alive = true →
    w ∈ s.outbox ∨ (f.complete = false ∧ ∃ x, build f.diagram = .err x) ∨
      ∃ k, s.clients f.owner = some k ∧ (Holds k.phase w ∨ k.phase = .gone)

theorem Live.step {build : D → Build V} {s : Server D V} (h : Inv build s) (hl : Live build s)
    (e : Ev D V) : Live build (step build s e) := by
  intro hup w f' hf' ha'
  have hu := step_up hup
  cases hw : s.workflows w with
  | none =>
    rcases step_new h e hf' hw with g | ⟨k, g1, g2 | g2⟩
    · exact .inr (.inl g)
    · exact .inr (.inr ⟨k, g1, .inl (.inl g2)⟩)
    · exact .inr (.inr ⟨k, g1, .inr g2⟩)
  | some f =>
    obtain ⟨f'', i1, i2, i3, i4, i5, _, _, _, i9⟩ := step_workflow h e hw hup
    rw [hf'] at i1; cases i1
    obtain ⟨i9, i10⟩ := i9 ha'
    rcases hl hu w f hw i9 with g | ⟨g1, g2⟩ | ⟨k, g1, g2⟩
    · exact .inl (i10 g)
    · exact .inr (.inl ⟨i5.trans g1, by rw [i3]; exact g2⟩)
    · obtain ⟨k', m1, _, _, m⟩ := step_client h e g1
      rw [i2]
      generalize hp : k.phase = p at m g2
      generalize hp' : k'.phase = p' at m
      cases m with
      | same => exact .inr (.inr ⟨k', m1, by rw [hp']; exact g2⟩)
      | accepted => simp [Holds] at g2
      | down => simp [Holds] at g2
      | started => simp [Holds] at g2
      | refused => simp [Holds] at g2
      | delivered w' o ho =>
        simp [Holds] at g2; subst g2
        exact .inr (.inr ⟨k', m1, .inl (.inr ⟨_, hp'⟩)⟩)
      | released w' r ho =>
        simp [Holds] at g2; subst g2
        exact .inl (ho hu)
      | left => exact .inr (.inr ⟨k', m1, .inr hp'⟩)

theorem Reachable.live {build : D → Build V} {s : Server D V} (h : Reachable build s) :
    Live build s := by
  obtain ⟨es, rfl⟩ := h
  suffices ∀ (es : List (Ev D V)) (s : Server D V), Inv build s → Live build s →
      Live build (run build s es) from this es initial (inv_initial build) (by
        intro _ w f hf; cases hf)
  intro es
  induction es with
  | nil => intro s _ h; exact h
  | cons e es ih => intro s h1 h2; exact ih _ (h1.step e) (Live.step h1 h2 e)

end Verif.Server
