import Verif.Diagram.TemplateLemmas
import Verif.Diagram.BuildSpec

/-
When the diagram builder gives up: a round without progress does nothing.
-/
namespace Verif.Diagram

/-- What there is to do, and what was done: operations that finished, outputs that were
connected and that were disposed of. -/
def Unchanged (s s' : St) : Prop :=
  s'.done = s.done ∧ s'.links = s.links ∧ s'.disposed = s.disposed

theorem act_unchanged {s s' : St} {a : Act} (h : act s a = .ok s') : Unchanged s s' := by
  cases a <;> simp only [act] at h
  case target => split at h <;> cases h; exact ⟨rfl, rfl, rfl⟩
  case buffer => split at h <;> cases h; exact ⟨rfl, rfl, rfl⟩
  all_goals cases h; exact ⟨rfl, rfl, rfl⟩

theorem acts_unchanged : ∀ {as : List Act} {s s' : St}, acts s as = .ok s' → Unchanged s s'
  | [], s, s', h => by cases h; exact ⟨rfl, rfl, rfl⟩
  | a :: as, s, s', h => by
    simp only [acts] at h
    split at h
    · cases h
    · rename_i s1 h1
      obtain ⟨a1, a2, a3⟩ := act_unchanged h1
      obtain ⟨b1, b2, b3⟩ := acts_unchanged h
      exact ⟨b1.trans a1, b2.trans a2, b3.trans a3⟩

/-- If no progress is reported then every operation was deferred and none was generated. -/
theorem buildAll_still {env : Env} : ∀ {us : List UOp} {s s' : St} {d d' : List UOp} {p : Bool},
    buildAll env us s d p = .ok (s', d', false) → p = false ∧ d' = d ++ us ∧ Unchanged s s'
  | [], s, s', d, d', p, h => by
    simp only [buildAll, Except.ok.injEq, Prod.mk.injEq] at h
    obtain ⟨rfl, rfl, rfl⟩ := h
    exact ⟨rfl, by simp, rfl, rfl, rfl⟩
  | u :: us, s, s', d, d', p, h => by
    simp only [buildAll] at h
    split at h
    · cases h
    · rename_i as status he
      split at h
      · cases h
      · rename_i s1 h1
        obtain ⟨a1, a2, a3⟩ := acts_unchanged h1
        split at h
        · exact absurd (buildAll_still h).1 (by simp)
        · rename_i q
          obtain ⟨hp, hd, b1, b2, b3⟩ := buildAll_still h
          simp only [Bool.or_eq_false_iff, Bool.not_eq_false'] at hp
          have hc : s1.children = [] := List.isEmpty_iff.1 hp.1.2
          refine ⟨hp.1.1, ?_, b1.trans a1, b2.trans a2, b3.trans a3⟩
          rw [hd, hc]
          simp

theorem addExtra_progress : ∀ (l : List (Ref × Ty × Nat)) (p : Pass),
    (addExtra p l).progress = p.progress
  | [], _ => rfl
  | _ :: rest, _ => addExtra_progress rest _

/-- If no progress is reported then there was no output to connect. -/
theorem connectAll_still {reg : Registry} {onErr r : Ref} : ∀ {os : List Out} {t : Target}
    {p p' : Pass}, connectAll reg onErr r t os p = .ok p' → p'.progress = false →
    p.progress = false ∧ os = [] ∧ p'.links = p.links ∧ p'.disposed = p.disposed
  | [], t, p, p', h, hp => by
    simp only [connectAll, Except.ok.injEq] at h
    subst h
    exact ⟨hp, rfl, rfl, rfl⟩
  | o :: os, t, p, p', h, hp => by
    simp only [connectAll] at h
    split at h
    · cases h
    · have := (connectAll_still h hp).1
      rw [addExtra_progress] at this
      cases this
    · have := (connectAll_still h hp).1
      cases this
    · have := (connectAll_still h hp).1
      cases this

theorem drain_still {reg : Registry} {onErr : Ref} {busy : Bool} :
    ∀ {l : List (Ref × List Out)} {p p' : Pass}, drain reg onErr busy l p = .ok p' →
    p'.progress = false →
    p.progress = false ∧ p'.links = p.links ∧ p'.disposed = p.disposed
  | [], p, p', h, hp => by
    simp only [drain, Except.ok.injEq] at h
    subst h
    exact ⟨hp, rfl, rfl⟩
  | (r, os) :: rest, p, p', h, hp => by
    simp only [drain] at h
    split at h
    · split at h
      · obtain ⟨a1, a2, a3⟩ := drain_still h hp
        exact ⟨a1, a2, a3⟩
      · cases h
    · split at h
      · cases h
      · rename_i p1 h1
        obtain ⟨a1, a2, a3⟩ := drain_still h hp
        obtain ⟨b1, _, b2, b3⟩ := connectAll_still h1 a1
        exact ⟨b1, a2.trans b2, a3.trans b3⟩

theorem pass_still {reg : Registry} {onErr : Ref}
    {ord : List (Ref × List Out) → List (Ref × List Out)} {busy more : Bool} {s s' : St}
    (h : pass reg onErr ord busy s = .ok (s', more, false)) : Unchanged s s' := by
  simp only [pass] at h
  split at h
  · cases h
  · rename_i p hp
    simp only [Except.ok.injEq, Prod.mk.injEq] at h
    obtain ⟨rfl, _, hf⟩ := h
    obtain ⟨_, a, b⟩ := drain_still hp hf
    exact ⟨rfl, a, b⟩

theorem inner_still {reg : Registry} {onErr : Ref} {ord : Order} {busy : Bool} :
    ∀ {left : Nat} {s s' : St} {p : Bool} {left' : Nat},
    inner reg onErr ord busy left s p = .ok (s', false, left') → p = false ∧ Unchanged s s'
  | 0, s, s', p, left', h => by
    simp only [inner] at h
    split at h <;> cases h
  | left + 1, s, s', p, left', h => by
    simp only [inner] at h
    split at h
    · cases h
    · rename_i s1 more q h1
      split at h
      · obtain ⟨hp, a1, a2, a3⟩ := inner_still h
        simp only [Bool.or_eq_false_iff] at hp
        obtain ⟨rfl, rfl⟩ := hp
        obtain ⟨b1, b2, b3⟩ := pass_still h1
        exact ⟨rfl, a1.trans b1, a2.trans b2, a3.trans b3⟩
      · simp only [Except.ok.injEq, Prod.mk.injEq, Bool.or_eq_false_iff] at h
        obtain ⟨rfl, ⟨rfl, rfl⟩, _⟩ := h
        exact ⟨rfl, pass_still h1⟩

/-! ### No other step gives up -/

theorem inferConn_not_halted {targets : List (Ref × Target)} :
    ∀ {n : Nat} {visited : List Ref} {c : Conn}, inferConn targets n visited c ≠ .error .halted := by
  intro n
  induction n with
  | zero => intro visited c h; cases h
  | succ n ih =>
    have follow : ∀ {visited : List Ref} {to : Ref},
        (if to ∈ visited then (.error .circularRedirect : Except Err (Option Ty))
          else match targets.lookup to with
            | none => .ok none
            | some t => inferConn targets n (to :: visited) t.conn) ≠ .error .halted := by
      intro visited to
      split
      · simp
      · split
        · simp
        · exact ih
    intro visited c
    cases c with
    | slot ty scope conv => simp [inferConn]
    | dispose => simp [inferConn]
    | cancel scope conv => simp [inferConn]
    | redirect to seen => exact follow
    | hop i o to x mate =>
      cases x with
      | some p => simp [inferConn]
      | none => exact follow

theorem inferInput_not_halted {c : Cons} {r : Ref} : inferInput c r ≠ .error .halted := by
  simp only [inferInput]
  split
  · simp
  · rename_i t _
    split
    · rename_i e he
      intro hf
      cases hf
      exact inferConn_not_halted he
    · simp
    · simp

theorem firstInferred_not_halted {c : Cons} {l : List Ref} : firstInferred c l ≠ .error .halted := by
  induction l with
  | nil => simp [firstInferred]
  | cons r rest ih =>
    simp only [firstInferred]
    split
    · rename_i e he
      intro hf
      rw [Except.error.injEq] at hf
      exact inferInput_not_halted (hf ▸ he)
    · simp
    · exact ih

theorem inferFromHints_not_halted {l : List Hint} : inferFromHints l ≠ .error .halted := by
  simp only [inferFromHints]
  split
  · simp
  · split <;> simp

theorem bufferType_not_halted {c : Cons} {r : Ref} {b : Bool} : bufferType c r b ≠ .error .halted := by
  simp only [bufferType]
  split
  · simp
  · split
    · rename_i e he
      intro hf
      rw [Except.error.injEq] at hf
      exact inferInput_not_halted (hf ▸ he)
    · simp
    · exact inferFromHints_not_halted

theorem checkClones_not_halted {reg : Registry} {tys : List Ty} : ∀ {is : List Nat},
    checkClones reg tys is ≠ .error .halted
  | [] => by simp [checkClones]
  | i :: rest => by
    simp only [checkClones]
    split
    · simp
    · split
      · exact checkClones_not_halted
      · simp

theorem joinType_not_halted {reg : Registry} {c : Cons} {r : Ref} {b : Bool} {tys : List Ty} :
    joinType reg c r b tys ≠ .error .halted := by
  simp only [joinType]
  split
  · split <;> simp
  · split
    · rename_i e he
      intro hf
      rw [Except.error.injEq] at hf
      exact inferInput_not_halted (hf ▸ he)
    · simp
    · split
      · simp
      · split <;> simp

theorem build_not_halted {reg : Registry} {ts : List (Name × Template)} {onErr : Ref} {u : UOp}
    {c : Cons} : build reg ts onErr u c ≠ .error .halted := by
  intro h
  unfold build at h
  simp only at h
  split at h
  · cases h
  · split at h
    · rename_i e he
      cases h
      exact firstInferred_not_halted he
    · cases h
    · split at h <;> cases h
  · split at h
    · rename_i e he
      cases h
      exact inferInput_not_halted he
    · cases h
    · split at h
      · cases h
      · split at h <;> cases h
  · split at h
    · rename_i e he
      cases h
      exact bufferType_not_halted he
    · cases h
    · cases h
  · split at h
    · rename_i e he
      cases h
      exact inferInput_not_halted he
    · cases h
    · split at h
      · cases h
      · split at h
        · cases h
        · split at h
          · cases h
          · split at h <;> cases h
  · split at h
    · rename_i e he
      cases h
      exact inferInput_not_halted he
    · cases h
    · split at h
      · cases h
      · split at h
        · cases h
        · split at h
          · cases h
          · split at h <;> cases h
  · split at h
    · cases h
    · split at h
      · cases h
      · split at h
        · rename_i e he
          cases h
          exact checkClones_not_halted he
        · split at h
          · rename_i e he
            cases h
            exact joinType_not_halted he
          · cases h
          · cases h
  · cases h
  · cases h
  · split at h
    · cases h
    · split at h <;> cases h
  · cases h

theorem acts_not_halted {as : List Act} : ∀ {s : St}, acts s as ≠ .error .halted := by
  induction as with
  | nil => intro s h; cases h
  | cons a rest ih =>
    intro s h
    simp only [acts] at h
    split at h
    · rename_i e he
      cases h
      cases a with
      | target r conn scope =>
        simp only [act] at he
        split at he <;> cases he
      | buffer r b =>
        simp only [act] at he
        split at he <;> cases he
      | _ => cases he
    · exact ih h

theorem connectSlot_not_halted {reg : Registry} {onErr : Ref} {at_ : Nat} {ty : Ty} {scope : Nat}
    {conv : List Ty} {o : Out} : connectSlot reg onErr at_ ty scope conv o ≠ .error .halted := by
  intro h
  simp only [connectSlot] at h
  split at h
  · cases h
  · split at h
    · split at h
      · cases h
      · split at h <;> cases h
    · split at h
      · split at h <;> cases h
      · cases h

theorem connect_not_halted {reg : Registry} {onErr : Ref} {at_ : Nat} {conn : Conn} {o : Out} :
    connect reg onErr at_ conn o ≠ .error .halted := by
  intro h
  cases conn with
  | slot ty scope conv =>
    simp only [connect] at h
    split at h
    · rename_i e he
      cases h
      exact connectSlot_not_halted he
    · cases h
  | dispose => cases h
  | cancel scope conv =>
    simp only [connect] at h
    split at h
    · cases h
    · split at h
      · cases h
      · split at h <;> cases h
  | redirect to seen =>
    simp only [connect] at h
    split at h <;> cases h
  | hop i out to x mate =>
    cases x with
    | none => cases h
    | some p =>
      obtain ⟨ty, conv⟩ := p
      simp only [connect] at h
      split at h
      · rename_i e he
        cases h
        exact connectSlot_not_halted he
      · cases h

theorem connectAll_not_halted {reg : Registry} {onErr r : Ref} {os : List Out} :
    ∀ {t : Target} {p : Pass}, connectAll reg onErr r t os p ≠ .error .halted := by
  induction os with
  | nil => intro t p h; cases h
  | cons o rest ih =>
    intro t p h
    simp only [connectAll] at h
    split at h
    · rename_i e he
      cases h
      exact connect_not_halted he
    · exact ih h
    · exact ih h
    · exact ih h

theorem drain_not_halted {reg : Registry} {onErr : Ref} {busy : Bool} {rem : List (Ref × List Out)} :
    ∀ {p : Pass}, drain reg onErr busy rem p ≠ .error .halted := by
  induction rem with
  | nil => intro p h; cases h
  | cons e rest ih =>
    obtain ⟨r, os⟩ := e
    intro p h
    simp only [drain] at h
    split at h
    · split at h
      · exact ih h
      · cases h
    · split at h
      · rename_i e he
        cases h
        exact connectAll_not_halted he
      · exact ih h

theorem pass_not_halted {reg : Registry} {onErr : Ref}
    {ord : List (Ref × List Out) → List (Ref × List Out)} {busy : Bool} {s : St} :
    pass reg onErr ord busy s ≠ .error .halted := by
  intro h
  simp only [pass] at h
  split at h
  · rename_i e he
    cases h
    exact drain_not_halted he
  · cases h

theorem buildAll_not_halted {reg : Registry} {ts : List (Name × Template)} {onErr : Ref}
    {us : List UOp} : ∀ {s : St} {deferred : List UOp} {p : Bool},
      buildAll (build reg ts onErr) us s deferred p ≠ .error .halted := by
  induction us with
  | nil => intro s deferred p h; cases h
  | cons u rest ih =>
    intro s deferred p h
    simp only [buildAll] at h
    split at h
    · rename_i e he
      cases h
      exact build_not_halted he
    · split at h
      · rename_i e he
        cases h
        exact acts_not_halted he
      · split at h
        · exact ih h
        · exact ih h

theorem inner_not_halted {reg : Registry} {onErr : Ref} {ord : Order} {busy : Bool} :
    ∀ {left : Nat} {s : St} {p : Bool}, inner reg onErr ord busy left s p ≠ .error .halted
  | 0, s, p, h => by
    simp only [inner] at h
    split at h
    · rename_i h1; cases h; exact pass_not_halted h1
    · cases h
  | left + 1, s, p, h => by
    simp only [inner] at h
    split at h
    · rename_i h1; cases h; exact pass_not_halted h1
    · split at h
      · exact inner_not_halted h
      · cases h

end Verif.Diagram
