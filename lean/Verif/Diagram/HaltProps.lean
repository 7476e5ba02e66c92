import Verif.Diagram.Halt
import Verif.Diagram.Witness

/-
C106: a build is given up only after a round in which nothing was done.
-/
namespace Verif.Diagram

/-- One round of building: the unfinished operations are built, then outputs are connected. -/
def Round (reg : Registry) (onErr : Ref) (ts : List (Name × Template)) (ord : Order)
    (us : List UOp) (s : St) (us' : List UOp) (s' : St) : Prop :=
  ∃ s1 p left p' left', buildAll (build reg ts onErr) us s [] false = .ok (s1, us', p) ∧
    inner reg onErr ord (!us'.isEmpty) left s1 p = .ok (s', p', left')

/-- What is reached after any number of rounds. -/
inductive Rounds (reg : Registry) (onErr : Ref) (ts : List (Name × Template)) (ord : Order) :
    List UOp → St → List UOp → St → Prop where
  | refl (us : List UOp) (s : St) : Rounds reg onErr ts ord us s us s
  | step {us us' us'' : List UOp} {s s' s'' : St} : Round reg onErr ts ord us s us' s' →
      Rounds reg onErr ts ord us' s' us'' s'' → Rounds reg onErr ts ord us s us'' s''

theorem drain_idle {reg : Registry} {onErr : Ref} :
    ∀ {l : List (Ref × List Out)} {p p' : Pass}, drain reg onErr false l p = .ok p' →
    p'.progress = false → ∀ e ∈ l, e.2 = []
  | [], _, _, _, _ => nofun
  | (r, os) :: rest, p, p', h, hp => by
    simp only [drain] at h
    split at h
    · simp at h
    · split at h
      · cases h
      · rename_i p1 h1
        have h2 := (connectAll_still h1 (drain_still h hp).1).2.1
        intro e he
        rcases List.mem_cons.1 he with rfl | he
        · exact h2
        · exact drain_idle h hp e he

/-- With nothing left to build a pass that does nothing has no outputs to connect. -/
theorem inner_idle {reg : Registry} {onErr : Ref} {ord : Order} (ho : Drains ord) {left left' : Nat}
    {s s' : St} {p : Bool} (h : inner reg onErr ord false left s p = .ok (s', false, left')) :
    hasOutputs s = false := by
  have key : ∀ n more s', pass reg onErr (ord n) false s = .ok (s', more, false) →
      hasOutputs s = false := by
    intro n more s' h
    simp only [pass] at h
    split at h
    · cases h
    · rename_i p hp
      simp only [Except.ok.injEq, Prod.mk.injEq] at h
      have := drain_idle hp h.2.2
      simp only [hasOutputs, List.any_eq_false, Bool.not_eq_true']
      intro e he
      rw [this e ((ho n _).mem_iff.2 he)]
      simp
  cases left with
  | zero =>
    simp only [inner] at h
    split at h <;> cases h
  | succ left =>
    simp only [inner] at h
    split at h
    · cases h
    · rename_i s1 more q h1
      split at h
      · have := (inner_still h).1
        simp only [Bool.or_eq_false_iff] at this
        obtain ⟨_, rfl⟩ := this
        exact key _ _ _ h1
      · simp only [Except.ok.injEq, Prod.mk.injEq, Bool.or_eq_false_iff] at h
        obtain ⟨_, ⟨_, rfl⟩, _⟩ := h
        exact key _ _ _ h1

theorem outer_halted {reg : Registry} {ts : List (Name × Template)} {onErr : Ref} {ord : Order}
    (ho : Drains ord) :
    ∀ {fuel left : Nat} {us : List UOp} {s : St},
      outer (build reg ts onErr) reg onErr ord fuel left us s = .error .halted →
      ∃ us' s' s'', Rounds reg onErr ts ord us s us' s' ∧ us' ≠ [] ∧
        Round reg onErr ts ord us' s' us' s'' ∧ Unchanged s' s'' := by
  intro fuel
  induction fuel with
  | zero => intro left us s h; cases h
  | succ fuel ih =>
    intro left us s h
    simp only [outer] at h
    split at h
    · cases h
    · rename_i hmore
      split at h
      · rename_i e he
        cases h
        exact absurd he buildAll_not_halted
      · rename_i s1 us1 p h1
        split at h
        · rename_i e he
          cases h
          exact absurd he inner_not_halted
        · rename_i s2 p' left' h2
          have hr : Round reg onErr ts ord us s us1 s2 := ⟨s1, p, left, p', left', h1, h2⟩
          split at h
          · split at h
            · cases h
            · obtain ⟨us', s', s'', a, b⟩ := ih h
              exact ⟨us', s', s'', .step hr a, b⟩
          · rename_i hp'
            have hp' : p' = false := by simpa using hp'
            subst hp'
            obtain ⟨hp, a1, a2, a3⟩ := inner_still h2
            subst hp
            obtain ⟨_, hu, b1, b2, b3⟩ := buildAll_still h1
            rw [List.nil_append] at hu
            subst hu
            refine ⟨us1, s, s2, .refl _ _, ?_, hr, a1.trans b1, a2.trans b2, a3.trans b3⟩
            intro he
            subst he
            simp only [buildAll, Except.ok.injEq, Prod.mk.injEq] at h1
            obtain ⟨rfl, _⟩ := h1
            have := inner_idle ho h2
            simp [this] at hmore

/-- C106. If building a diagram is given up because no progress is made, then there were
operations left to build, and in a whole round none of them was built and none was added, no
output was connected and none disposed of. -/
theorem C106_stuck {reg : Registry} {io : Io} {ord : Order} {max : Nat} {d : Diagram}
    (ho : Drains ord) (h : create reg io ord max d = .error .halted) :
    ∃ s0 us s s', acts St.empty (builtins d.start io) = .ok s0 ∧
      Rounds reg d.errRef d.templates ord (d.ops.map fun e => ⟨e.1, [], e.2, 0⟩) s0 us s ∧
      us ≠ [] ∧ Round reg d.errRef d.templates ord us s us s' ∧
      s'.done = s.done ∧ s'.links = s.links ∧ s'.disposed = s.disposed := by
  simp only [create] at h
  split at h
  · rename_i e he
    cases h
    exfalso
    have key : ∀ l, validateUsage d.templates l ≠ .error .halted := by
      intro l
      induction l with
      | nil => intro h; cases h
      | cons a rest ih =>
        intro h
        simp only [validateUsage] at h
        split at h
        · rename_i e' he'
          cases h
          rcases C46_error _ _ _ he' with ⟨b, h1, _⟩ | ⟨h1, _⟩ <;> cases h1
        · exact ih h
    exact key _ he
  · split at h
    · rename_i e he
      cases h
      exact absurd he acts_not_halted
    · rename_i s0 h0
      simp only [run] at h
      split at h
      · rename_i e he
        cases h
        obtain ⟨us, s, s', a, b, c, g⟩ := outer_halted ho he
        exact ⟨s0, us, s, s', h0, a, b, c, g⟩
      · split at h <;> cases h

/-- A diagram that is given up: a buffer of unknown type, read by nobody. -/
def stuckD : Diagram := ⟨.terminate, [(0, .buffer false)], [], none⟩

theorem stuckD_halted : create sampleReg ⟨1, 1, []⟩ inOrder 10000 stuckD = .error .halted :=
  of_errOf (by decide +kernel)

example : ∃ s0 us s s', acts St.empty (builtins stuckD.start ⟨1, 1, []⟩) = .ok s0 ∧
    Rounds sampleReg stuckD.errRef [] inOrder [⟨0, [], .buffer false, 0⟩] s0 us s ∧ us ≠ [] ∧
    Round sampleReg stuckD.errRef [] inOrder us s us s' ∧
    s'.done = s.done ∧ s'.links = s.links ∧ s'.disposed = s.disposed :=
  C106_stuck inOrder_drains stuckD_halted

end Verif.Diagram
