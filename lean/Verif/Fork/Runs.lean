import Verif.Fork.Lemmas

/- Executing a forking operation until its inputs are used up. -/
namespace Verif.Fork

open Verif.Input

variable {V : Type}

/-- The effect of one execution, whatever the message. -/
def StepLaw (op : Op V) (source : Nat) (ok : World V → Prop) (out : V → List (Nat × V))
    (disp : V → List Cause) : Prop :=
  ∀ (w : World V) (i : Inp Nat V) (rest : List (Inp Nat V)), ok w → w.inbox source = i :: rest →
    ∃ w', exec op source w = (w', none) ∧
      Delivered w w' source i.session (sentIf (w.active i.session) (out i.data)) (disp i.data)

/-- The messages the node `e` gets out of the inputs `ms` of the operation. -/
def share (active : Nat → Bool) (out : V → List (Nat × V)) (ms : List (Inp Nat V)) (e : Nat) :
    List (Inp Nat V) :=
  ms.flatMap fun i => ((sentIf (active i.session) (out i.data)).filter fun p => p.1 = e).map
    fun p => ⟨i.session, p.2⟩

theorem drain {op : Op V} {source : Nat} {ok : World V → Prop} {out : V → List (Nat × V)}
    {disp : V → List Cause} (law : StepLaw op source ok out disp)
    (stable : ∀ w w' : World V, ok w → (∀ e, w'.Accepts e ↔ w.Accepts e) →
      (∀ e, w'.Listens e ↔ w.Listens e) → ok w')
    (hself : ∀ m p, p ∈ out m → p.1 ≠ source) :
    ∀ (ms : List (Inp Nat V)) (w : World V), ok w → w.inbox source = ms →
    ∃ w', execMany op source ms.length w = (w', []) ∧
      (∀ e, w.Listens e → e ≠ source → w'.inbox e = w.inbox e ++ share w.active out ms e) ∧
      w'.inbox source = [] ∧
      w'.disposals = w.disposals ++ ms.flatMap fun i =>
        (disp i.data).map fun c => ⟨source, i.session, c⟩ := by
  intro ms
  induction ms with
  | nil => intro w _ h; exact ⟨w, rfl, by simp [share], h, by simp⟩
  | cons i ms ih =>
    intro w hok h
    obtain ⟨w1, e1, d1⟩ := law w i ms hok h
    have hl := listens_of_inbox h
    have hsrc : w1.inbox source = ms := by
      rw [d1.inbox source hl, h]
      have : (sentIf (w.active i.session) (out i.data)).filter (fun p => p.1 = source) = [] := by
        rw [List.filter_eq_nil_iff]
        intro p hp
        have : p ∈ out i.data := by
          unfold sentIf at hp; split at hp
          · exact hp
          · simp at hp
        simpa using hself _ _ this
      rw [this]
      simp
    obtain ⟨w2, e2, b2, s2, p2⟩ := ih w1 (stable w w1 hok d1.accepts d1.listens) hsrc
    refine ⟨w2, ?_, ?_, s2, ?_⟩
    · simp only [List.length_cons, execMany, e1, e2]
      rfl
    · intro e he hne
      rw [b2 e ((d1.listens e).2 he) hne, d1.inbox e he, d1.active]
      simp [hne, share, List.append_assoc]
    · rw [p2, d1.disposals]
      simp [List.append_assoc]

end Verif.Fork
