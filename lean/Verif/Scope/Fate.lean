import Verif.Scope.Calm3

/-
What becomes of an entry: it stays, or its outcome is passed on.
-/
set_option linter.unusedSimpArgs false
set_option linter.unusedVariables false
namespace Verif.Scope

variable {α κ : Type}

/-- Two ends of a session that differ at most in what happened while cancelling. -/
def SameEnd : Finish κ → Finish κ → Prop
  | .terminated, .terminated => True
  | .earlyCleanup, .earlyCleanup => True
  | .cancelled k _, .cancelled k' _ => k = k'
  | _, _ => False

theorem SameEnd.refl (f : Finish κ) : SameEnd f f := by cases f <;> simp [SameEnd]

theorem SameEnd.trans {f g h : Finish κ} (a : SameEnd f g) (b : SameEnd g h) : SameEnd f h := by
  revert a b
  cases f <;> cases g <;> cases h <;> simp [SameEnd]
  rintro rfl rfl; rfl

theorem SameEnd.during (f : Finish κ) (k : Option κ) : SameEnd f (f.during k) := by
  cases f <;> cases k <;> simp [SameEnd, Finish.during]

/-- The output is the outcome of an entry. -/
def Out.Ends (s p : Ent) : Finish κ → Out α κ → Prop
  | .terminated, .respond s' p' _ => s' = s ∧ p' = p
  | .cancelled k _, .cancel s' p' k' _ => s' = s ∧ p' = p ∧ k' = k
  | _, _ => False

theorem Out.Ends.congr {s p : Ent} {f g : Finish κ} {o : Out α κ} (h : SameEnd f g)
    (ho : o.Ends s p g) : o.Ends s p f := by
  revert h ho
  cases f <;> cases g <;> cases o <;> simp [SameEnd, Out.Ends]
  intro e a b c
  exact ⟨a, b, c.trans e.symm⟩

/-- The end of the session is decided. -/
def Fate (s p : Ent) (f : Finish κ) (st : State α κ) : Prop :=
  (∃ a ∈ st.awaiting, a.sid = s ∧ a.parent = p ∧ SameEnd f a.status) ∨
  (∃ o ∈ st.out, o.Ends s p f)

theorem Fate.mono {s p : Ent} {f : Finish κ} {st st' : State α κ} (h : Fate s p f st)
    (ha : ∀ a ∈ st.awaiting, a ∈ st'.awaiting) (ho : ∀ o ∈ st.out, o ∈ st'.out) :
    Fate s p f st' := by
  rcases h with ⟨a, h1, h2⟩ | ⟨o, h1, h2⟩
  · exact Or.inl ⟨a, ha a h1, h2⟩
  · exact Or.inr ⟨o, ho o h1, h2⟩

/-- Nothing is taken away. -/
structure Grow (st st' : State α κ) : Prop where
  awaiting : ∀ a ∈ st.awaiting, a ∈ st'.awaiting
  out : ∀ o ∈ st.out, o ∈ st'.out

theorem Grow.refl (st : State α κ) : Grow st st := ⟨fun _ h => h, fun _ h => h⟩

theorem Grow.trans {a b c : State α κ} (h : Grow a b) (g : Grow b c) : Grow a c :=
  ⟨fun x hx => g.1 x (h.1 x hx), fun x hx => g.2 x (h.2 x hx)⟩

theorem Grow.of_eq {st st' : State α κ} (h1 : st'.awaiting = st.awaiting) (h2 : st'.out = st.out) :
    Grow st st' := ⟨by rw [h1]; exact fun _ h => h, by rw [h2]; exact fun _ h => h⟩

theorem Grow.emit (st : State α κ) (o : Out α κ) : Grow st (st.emit o) :=
  ⟨fun _ h => h, fun _ h => List.mem_append_left _ h⟩

theorem cleanOne_grow (cfg : Cfg) (c : Cleanup) (f : Finish κ) (now : List (Ent × Ent)) (s : Ent)
    (st st' : State α κ) (h : cleanOne cfg c f now s st = some st') : Grow st st' ∧
      ∃ a ∈ st'.awaiting, a.sid = s ∧ st.alive s = some a.parent ∧ a.status = f := by
  unfold cleanOne at h
  split at h
  · cases h
  · rename_i parent hp
    dsimp only at h
    split at h
    · injection h with h
      subst h
      exact ⟨⟨fun _ h => List.mem_append_left _ h, fun _ h => h⟩, _,
        List.mem_append_right _ (List.mem_singleton.mpr rfl), rfl, hp, rfl⟩
    · injection h with h
      subst h
      have hfr := cleanNodes_frame cfg.self s c.id now cfg.nodes { st with
        awaiting := st.awaiting ++ [{ sid := s, parent, cleanup := c, status := f }]
        contents := fun i => if i = c.id then some cfg.nodes else st.contents i }
      refine ⟨⟨?_, ?_⟩, { sid := s, parent, cleanup := c, status := f }, ?_, rfl, hp, rfl⟩
      · rw [hfr.awaiting]; exact fun _ h => List.mem_append_left _ h
      · rw [hfr.out]; exact fun _ h => h
      · rw [hfr.awaiting]; exact List.mem_append_right _ (List.mem_singleton.mpr rfl)

theorem cleanupEntire_grow (cfg : Cfg) (c : Cleanup) (f : Finish κ) (now : List (Ent × Ent)) :
    ∀ (l : List Ent) (st : State α κ), Grow st (cleanupEntire cfg c f now l st) := by
  intro l
  induction l with
  | nil => intro st; exact Grow.refl _
  | cons s ss ih =>
    intro st
    simp only [cleanupEntire]
    split
    · exact Grow.emit _ _
    · rename_i st' e
      exact (cleanOne_grow cfg c f now s st st' e).1.trans (ih _)

theorem cancelOne_grow (cfg : Cfg) (s : Ent) (k : κ) (now : List (Ent × Ent)) (st : State α κ) :
    Grow st (cancelOne cfg s k now st) := by
  unfold cancelOne
  exact Grow.trans (b := { st with sessions := (transition (fun p => p.sid == s || p.parent == s)
    Status.toCancelled st.sessions).1 }) (Grow.of_eq rfl rfl) (cleanupEntire_grow _ _ _ _ _ _)

theorem cancelAll_grow (cfg : Cfg) (k : κ) (now : List (Ent × Ent)) : ∀ (l : List Ent)
    (st : State α κ), Grow st (cancelAll cfg k now l st) := by
  intro l
  induction l with
  | nil => intro st; exact Grow.refl _
  | cons s ss ih => intro st; exact (cancelOne_grow cfg s k now st).trans (ih _)

theorem validate_grow (cfg : Cfg) (s : Ent) (u : Option κ) (now : List (Ent × Ent))
    (st : State α κ) : Grow st (validate cfg s u now st) := by
  unfold validate
  split
  · exact Grow.refl _
  · split
    · exact Grow.refl _
    · rename_i sessions changed _
      dsimp only
      split
      · exact Grow.trans (b := { st with sessions }) (Grow.of_eq rfl rfl)
          (cleanupEntire_grow _ _ _ _ _ _)
      · exact Grow.of_eq rfl rfl

theorem terminate_grow (cfg : Cfg) (s : Ent) (v : α) (now : List (Ent × Ent))
    (st : State α κ) : Grow st (terminate cfg s v now st) := by
  unfold terminate
  dsimp only
  split
  · exact Grow.of_eq rfl rfl
  · split
    · exact ⟨fun _ h => h, fun _ h => List.mem_append_left _ h⟩
    · rename_i sessions changed _
      split
      · exact Grow.trans (b := { st with
          values := st.values ++ [(s, v)]
          staging := fun i => if i = s then some v else st.staging i
          sessions }) (Grow.of_eq rfl rfl) (cleanupEntire_grow _ _ _ _ _ _)
      · exact Grow.of_eq rfl rfl

theorem begin_grow (cfg : Cfg) (p : Ent) (bl : Bool) (c u : Option κ) (now : List (Ent × Ent))
    (st : State α κ) : Grow st (beginScope cfg p bl c u now st) := by
  unfold beginScope
  dsimp only
  have h0 : ∀ i, Grow st { st with
    next := st.next + 1
    begun := st.begun ++ [(st.next, p)]
    alive := fun i => if i = st.next then some p else st.alive i
    exits := fun i => if i = st.next ∧ cfg.workflow then some bl else st.exits i
    sessions := st.sessions ++ [{ parent := p, sid := st.next, status := .ongoing }]
    initial := i } := fun i => Grow.of_eq rfl rfl
  split
  · exact (h0 _).trans (cancelOne_grow _ _ _ _ _)
  · exact (h0 _).trans (validate_grow _ _ _ _ _)
  · exact h0 _
  · split
    · exact (h0 _).trans (cancelOne_grow _ _ _ _ _)
    · exact ((h0 _).trans (validate_grow _ _ _ _ _)).trans (Grow.of_eq rfl rfl)

theorem register_grow (st : State α κ) (c : Cleanup) : Grow st (st.register c) :=
  Grow.of_eq (register_frame st c).awaiting (register_frame st c).out

/-- The entries after a change of one of them and perhaps its end. -/
theorem Fate.advance {s p : Ent} {f : Finish κ} {st st1 : State α κ} (h : Fate s p f st)
    (l1 l2 : List (Awaiting κ)) (a a' : Awaiting κ) (hl : st.awaiting = l1 ++ a :: l2)
    (hl' : st1.awaiting = l1 ++ a' :: l2) (e1 : a'.sid = a.sid) (e2 : a'.parent = a.parent)
    (e3 : SameEnd a.status a'.status) (ho : st1.out = st.out) : Fate s p f st1 := by
  rcases h with ⟨b, hb, h1, h2, h3⟩ | ⟨o, h1, h2⟩
  · rw [hl] at hb
    simp only [List.mem_append, List.mem_cons] at hb
    rcases hb with hb | rfl | hb
    · exact Or.inl ⟨b, by rw [hl']; simp [hb], h1, h2, h3⟩
    · exact Or.inl ⟨a', by rw [hl']; simp, e1.trans h1, e2.trans h2, h3.trans e3⟩
    · exact Or.inl ⟨b, by rw [hl']; simp [hb], h1, h2, h3⟩
  · exact Or.inr ⟨o, by rw [ho]; exact h1, h2⟩

theorem Fate.finalize {s p : Ent} {f : Finish κ} {cfg : Cfg} {st : State α κ} (h : Fate s p f st)
    (i : Nat) (l1 l2 : List (Awaiting κ)) (a : Awaiting κ)
    (hi : i = l1.length) (hl : st.awaiting = l1 ++ a :: l2)
    (hstage : a.status = .terminated → (st.staging a.sid).isSome)
    (hq : Quiet cfg (some a.sid) st) : Fate s p f (finalize cfg i st) := by
  have ham : a ∈ st.awaiting := by rw [hl]; simp
  obtain ⟨st', hst', ⟨u, hu, hout⟩, hA, _⟩ :=
    finalize_eq cfg st i l1 l2 a hi hl hq.noEarly (fun hw => hq.aExit hw a ham) hstage
  rw [hst']
  rcases h with ⟨b, hb, h1, h2, h3⟩ | ⟨o, h1, h2⟩
  · rw [hl] at hb
    simp only [List.mem_append, List.mem_cons] at hb
    rcases hb with hb | rfl | hb
    · exact Or.inl ⟨b, by rw [hA]; simp [hb], h1, h2, h3⟩
    · refine Or.inr ?_
      obtain ⟨o, ho, _⟩ := outcomeOf_spec b (st.staging b.sid) (hq.noEarly b ham) hstage
      refine ⟨o, by rw [hout, ho]; simp, ?_⟩
      refine Out.Ends.congr h3 ?_
      unfold outcomeOf at ho
      cases hs : b.status with
      | earlyCleanup => exact absurd hs (hq.noEarly b ham)
      | terminated =>
        obtain ⟨v, hv⟩ := Option.isSome_iff_exists.mp (hstage hs)
        rw [hs, hv] at ho
        simp only [Option.map_some, Option.toList_some, List.cons.injEq, and_true] at ho
        rw [← ho]; exact ⟨h1, h2⟩
      | cancelled k inner =>
        rw [hs] at ho
        simp only [List.cons.injEq, and_true] at ho
        rw [← ho]; exact ⟨h1, h2, rfl⟩
    · exact Or.inl ⟨b, by rw [hA]; simp [hb], h1, h2, h3⟩
  · exact Or.inr ⟨o, by rw [hout]; simp [h1], h2⟩

theorem Fate.ofAdvance {s p : Ent} {f : Finish κ} {cfg : Cfg} {st st' : State α κ}
    (h : Fate s p f st) (ha : Advance cfg st st') : Fate s p f st' := by
  rcases ha.form with rfl | ⟨l1, l2, a, a', fs, st1, h1, h2, h3, h4, h5, ⟨k, h6⟩, h7, h8, h9, rfl⟩
  · exact h
  · have hf : Fate s p f st1 :=
      h.advance l1 l2 a a' h1 h2 h3 h4 (by rw [h6]; exact SameEnd.during _ _) h7
    split
    · rw [← h3] at h8 h9
      exact hf.finalize _ l1 l2 a' rfl h2 h8 h9
    · exact hf

theorem step_fate (cfg : Cfg) (s p : Ent) (f : Finish κ) (st : State α κ) (e : Ev α κ)
    (h : Quiet cfg none st) (hsafe : Safe st) (hc : Calm st e) (hf : Fate s p f st) :
    Fate s p f (step cfg st e) := by
  have g : ∀ st', Grow st st' → Fate s p f st' := fun st' g => hf.mono g.1 g.2
  cases e with
  | spawn => exact g _ (Grow.of_eq rfl rfl)
  | «begin» p bl c u now => exact g _ (begin_grow cfg p bl c u now st)
  | terminate s v now =>
    simp only [step]
    split
    · exact g _ (terminate_grow cfg s v now st)
    · exact hf
  | cancel s k now =>
    cases s with
    | none => exact g _ (cancelAll_grow cfg k now _ st)
    | some s => exact g _ (cancelOne_grow cfg s k now st)
  | validate s u now => exact g _ (validate_grow cfg s u now st)
  | cleanup c now => exact hc.elim
  | cleaned c =>
    simp only [step]
    split
    · exact g _ (Grow.trans (b := { st with pending := st.pending.erase c }) (Grow.of_eq rfl rfl)
        (register_grow _ _))
    · exact hf
  | trigger =>
    rcases trigger_advance cfg st h hsafe with ⟨_, e⟩ | e
    · simp only [step]; rw [e]; exact hf
    · exact hf.ofAdvance e
  | flowDone w k => exact hf.ofAdvance (flowDone_advance cfg st h hsafe w k)
  | despawn p => exact hc.elim

theorem run_fate (cfg : Cfg) (hn : cfg.nodes.Nodup) (s p : Ent) (f : Finish κ) :
    ∀ (es : List (Ev α κ)) (st : State α κ), Quiet cfg none st → Safe st → Along cfg Calm st es →
      Fate s p f st → Fate s p f (run cfg st es) := by
  intro es
  induction es with
  | nil => intro st _ _ _ hf; exact hf
  | cons e es ih =>
    intro st h hs ha hf
    exact ih _ (step_quiet cfg hn st e h hs ha.1) (step_safe cfg st e hs (ha.1.noLate cfg)) ha.2
      (step_fate cfg s p f st e h hs ha.1 hf)

theorem Along.append {cfg : Cfg} {P : State α κ → Ev α κ → Prop} {st : State α κ} :
    ∀ {es fs : List (Ev α κ)}, Along cfg P st (es ++ fs) →
      Along cfg P st es ∧ Along cfg P (run cfg st es) fs := by
  intro es
  induction es generalizing st with
  | nil => intro fs h; exact ⟨trivial, h⟩
  | cons e es ih =>
    intro fs h
    obtain ⟨h1, h2⟩ := h
    have := ih h2
    exact ⟨⟨h1, this.1⟩, this.2⟩

theorem run_append (cfg : Cfg) (st : State α κ) : ∀ (es fs : List (Ev α κ)),
    run cfg st (es ++ fs) = run cfg (run cfg st es) fs := by
  intro es
  induction es generalizing st with
  | nil => intro fs; rfl
  | cons e es ih => intro fs; exact ih _ fs

end Verif.Scope
