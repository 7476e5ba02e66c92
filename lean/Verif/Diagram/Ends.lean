import Verif.Diagram.TemplateLemmas
import Verif.Diagram.BuildSpec

/-
The loops of the diagram builder end.
-/
namespace Verif.Diagram

theorem inferConn_ends {targets : List (Ref × Target)} :
    ∀ {n : Nat} {visited : List Ref} {c : Conn},
      (targets.filter fun e => e.1 ∉ visited).length < n →
      inferConn targets n visited c ≠ .error .fuel := by
  intro n
  induction n with
  | zero => intro visited c h; omega
  | succ n ih =>
    have follow : ∀ {visited : List Ref} {to : Ref},
        (targets.filter fun e => e.1 ∉ visited).length < n + 1 →
        (if to ∈ visited then (.error .circularRedirect : Except Err (Option Ty))
          else match targets.lookup to with
            | none => .ok none
            | some t => inferConn targets n (to :: visited) t.conn) ≠ .error .fuel := by
      intro visited to h
      split
      · simp
      · rename_i hv
        split
        · simp
        · rename_i t ht
          apply ih
          have := length_filter_lt (fun e : Ref × Target => decide (e.1 ∉ visited))
            (fun e : Ref × Target => decide (e.1 ∉ to :: visited))
            (by
              intro x hx
              simp only [List.mem_cons, not_or, decide_eq_true_eq] at hx ⊢
              exact hx.2)
            targets ⟨(to, t), mem_of_lookup ht, by simpa using hv, by simp⟩
          omega
    intro visited c h
    cases c with
    | slot ty scope conv => simp [inferConn]
    | dispose => simp [inferConn]
    | cancel scope conv => simp [inferConn]
    | redirect to seen => exact follow h
    | hop i o to x mate =>
      cases x with
      | some p => simp [inferConn]
      | none => exact follow h

theorem inferInput_ends {c : Cons} {r : Ref} : inferInput c r ≠ .error .fuel := by
  simp only [inferInput]
  split
  · simp
  · rename_i t _
    have h : inferConn c.targets (c.targets.length + 2) [r] t.conn ≠ .error .fuel := by
      apply inferConn_ends
      have : (c.targets.filter fun e => e.1 ∉ [r]).length ≤ c.targets.length :=
        List.length_filter_le _ _
      omega
    split
    · rename_i e he
      intro hf
      rw [Except.error.injEq] at hf
      rw [he, hf] at h
      exact h rfl
    · simp
    · simp

theorem firstInferred_ends {c : Cons} {l : List Ref} : firstInferred c l ≠ .error .fuel := by
  induction l with
  | nil => simp [firstInferred]
  | cons r rest ih =>
    simp only [firstInferred]
    split
    · rename_i e he
      intro hf
      rw [Except.error.injEq] at hf
      exact inferInput_ends (hf ▸ he)
    · simp
    · exact ih

theorem inferFromHints_ends {l : List Hint} : inferFromHints l ≠ .error .fuel := by
  simp only [inferFromHints]
  split
  · simp
  · split <;> simp

theorem bufferType_ends {c : Cons} {r : Ref} {b : Bool} : bufferType c r b ≠ .error .fuel := by
  simp only [bufferType]
  split
  · simp
  · split
    · rename_i e he
      intro hf
      rw [Except.error.injEq] at hf
      exact inferInput_ends (hf ▸ he)
    · simp
    · exact inferFromHints_ends

theorem checkClones_ends {reg : Registry} {tys : List Ty} : ∀ {is : List Nat},
    checkClones reg tys is ≠ .error .fuel
  | [] => by simp [checkClones]
  | i :: rest => by
    simp only [checkClones]
    split
    · simp
    · split
      · exact checkClones_ends
      · simp

theorem joinType_ends {reg : Registry} {c : Cons} {r : Ref} {b : Bool} {tys : List Ty} :
    joinType reg c r b tys ≠ .error .fuel := by
  simp only [joinType]
  split
  · split <;> simp
  · split
    · rename_i e he
      intro hf
      rw [Except.error.injEq] at hf
      exact inferInput_ends (hf ▸ he)
    · simp
    · split
      · simp
      · split <;> simp

theorem build_ends {reg : Registry} {ts : List (Name × Template)} {onErr : Ref} {u : UOp}
    {c : Cons} : build reg ts onErr u c ≠ .error .fuel := by
  intro h
  unfold build at h
  simp only at h
  split at h
  · cases h
  · split at h
    · rename_i e he
      cases h
      exact firstInferred_ends he
    · cases h
    · split at h <;> cases h
  · split at h
    · rename_i e he
      cases h
      exact inferInput_ends he
    · cases h
    · split at h
      · cases h
      · split at h <;> cases h
  · split at h
    · rename_i e he
      cases h
      exact bufferType_ends he
    · cases h
    · cases h
  · split at h
    · rename_i e he
      cases h
      exact inferInput_ends he
    · cases h
    · split at h
      · cases h
      · split at h
        · cases h
        · split at h
          · cases h
          · split at h <;> cases h
  · split at h
    · rename_i e he
      cases h
      exact inferInput_ends he
    · cases h
    · split at h
      · cases h
      · split at h
        · cases h
        · split at h
          · cases h
          · split at h <;> cases h
  · split at h
    · cases h
    · split at h
      · cases h
      · split at h
        · rename_i e he
          cases h
          exact checkClones_ends he
        · split at h
          · rename_i e he
            cases h
            exact joinType_ends he
          · cases h
          · cases h
  · cases h
  · cases h
  · split at h
    · cases h
    · split at h <;> cases h
  · cases h

theorem acts_ends {as : List Act} : ∀ {s : St}, acts s as ≠ .error .fuel := by
  induction as with
  | nil => intro s h; cases h
  | cons a rest ih =>
    intro s h
    simp only [acts] at h
    split at h
    · rename_i e he
      cases h
      cases a with
      | target r conn scope =>
        simp only [act] at he
        split at he <;> cases he
      | buffer r b =>
        simp only [act] at he
        split at he <;> cases he
      | _ => cases he
    · exact ih h

theorem connectSlot_ends {reg : Registry} {onErr : Ref} {at_ : Nat} {ty : Ty} {scope : Nat}
    {conv : List Ty} {o : Out} : connectSlot reg onErr at_ ty scope conv o ≠ .error .fuel := by
  intro h
  simp only [connectSlot] at h
  split at h
  · cases h
  · split at h
    · split at h
      · cases h
      · split at h <;> cases h
    · split at h
      · split at h <;> cases h
      · cases h

theorem connect_ends {reg : Registry} {onErr : Ref} {at_ : Nat} {conn : Conn} {o : Out} :
    connect reg onErr at_ conn o ≠ .error .fuel := by
  intro h
  cases conn with
  | slot ty scope conv =>
    simp only [connect] at h
    split at h
    · rename_i e he
      cases h
      exact connectSlot_ends he
    · cases h
  | dispose => cases h
  | cancel scope conv =>
    simp only [connect] at h
    split at h
    · cases h
    · split at h
      · cases h
      · split at h <;> cases h
  | redirect to seen =>
    simp only [connect] at h
    split at h <;> cases h
  | hop i out to x mate =>
    cases x with
    | none => cases h
    | some p =>
      obtain ⟨ty, conv⟩ := p
      simp only [connect] at h
      split at h
      · rename_i e he
        cases h
        exact connectSlot_ends he
      · cases h

theorem connectAll_ends {reg : Registry} {onErr r : Ref} {os : List Out} :
    ∀ {t : Target} {p : Pass}, connectAll reg onErr r t os p ≠ .error .fuel := by
  induction os with
  | nil => intro t p h; cases h
  | cons o rest ih =>
    intro t p h
    simp only [connectAll] at h
    split at h
    · rename_i e he
      cases h
      exact connect_ends he
    · exact ih h
    · exact ih h
    · exact ih h

theorem drain_ends {reg : Registry} {onErr : Ref} {busy : Bool} {rem : List (Ref × List Out)} :
    ∀ {p : Pass}, drain reg onErr busy rem p ≠ .error .fuel := by
  induction rem with
  | nil => intro p h; cases h
  | cons e rest ih =>
    obtain ⟨r, os⟩ := e
    intro p h
    simp only [drain] at h
    split at h
    · split at h
      · exact ih h
      · cases h
    · split at h
      · rename_i e he
        cases h
        exact connectAll_ends he
      · exact ih h

theorem pass_ends {reg : Registry} {onErr : Ref}
    {ord : List (Ref × List Out) → List (Ref × List Out)} {busy : Bool} {s : St} :
    pass reg onErr ord busy s ≠ .error .fuel := by
  intro h
  simp only [pass] at h
  split at h
  · rename_i e he
    cases h
    exact drain_ends he
  · cases h

theorem inner_ends {reg : Registry} {onErr : Ref} {ord : Order} {busy : Bool} :
    ∀ {n : Nat} {s : St} {q : Bool}, inner reg onErr ord busy n s q ≠ .error .fuel ∧
      ∀ s' q' left, inner reg onErr ord busy n s q = .ok (s', q', left) → left < n := by
  intro n
  induction n with
  | zero =>
    intro s q
    simp only [inner]
    split
    · rename_i e he
      refine ⟨?_, by simp⟩
      intro h
      cases h
      exact pass_ends he
    · exact ⟨by simp, by simp⟩
  | succ n ih =>
    intro s q
    simp only [inner]
    split
    · rename_i e he
      refine ⟨?_, by simp⟩
      intro h
      cases h
      exact pass_ends he
    · split
      · refine ⟨ih.1, fun s' q' left h => ?_⟩
        have := ih.2 s' q' left h
        omega
      · refine ⟨by simp, ?_⟩
        intro s' q' left h
        cases h
        omega

theorem buildAll_ends {reg : Registry} {ts : List (Name × Template)} {onErr : Ref}
    {us : List UOp} : ∀ {s : St} {deferred : List UOp} {p : Bool},
      buildAll (build reg ts onErr) us s deferred p ≠ .error .fuel := by
  induction us with
  | nil => intro s deferred p h; cases h
  | cons u rest ih =>
    intro s deferred p h
    simp only [buildAll] at h
    split at h
    · rename_i e he
      cases h
      exact build_ends he
    · split at h
      · rename_i e he
        cases h
        exact acts_ends he
      · split at h
        · exact ih h
        · exact ih h

theorem outer_ends {reg : Registry} {ts : List (Name × Template)} {onErr : Ref} {ord : Order} :
    ∀ {fuel left : Nat} {us : List UOp} {s : St}, left < fuel →
      outer (build reg ts onErr) reg onErr ord fuel left us s ≠ .error .fuel := by
  intro fuel
  induction fuel with
  | zero => intro left us s h; omega
  | succ fuel ih =>
    intro left us s hlt h
    simp only [outer] at h
    split at h
    · cases h
    · split at h
      · rename_i e he
        cases h
        exact buildAll_ends he
      · split at h
        · rename_i e he
          cases h
          exact inner_ends.1 he
        · rename_i s2 p2 left2 h2
          have := inner_ends.2 _ _ _ h2
          split at h
          · split at h
            · cases h
            · exact ih (by omega) h
          · cases h

theorem validateUsage_ends {ts : List (Name × Template)} {l : List Name} :
    validateUsage ts l ≠ .error .fuel := by
  induction l with
  | nil => simp [validateUsage]
  | cons t rest ih =>
    intro h
    simp only [validateUsage] at h
    split at h
    · rename_i e he
      cases h
      exact checkTemplate_ends t he
    · exact ih h

end Verif.Diagram
