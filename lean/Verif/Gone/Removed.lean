import Verif.Gone.Lemmas

/-
What changes and what does not change once the service is removed.
-/
namespace Verif.Gone

open Verif.Delivery (Svc Task Order Instr Kind Delivery accepted ended lost started waiting active)

set_option linter.unusedSimpArgs false
set_option linter.unusedVariables false

theorem count_cleared_dropped (r : Req) (l : List Req) :
    (l.map Rec.cleared).count (.dropped r) = 0 := by
  rw [List.count_eq_zero]
  intro hm
  obtain ⟨a, _, ha⟩ := List.mem_map.1 hm
  cases ha

/-- What stays the same after the removal. -/
def Same (w w' : W) : Prop :=
  w'.present = false ∧ w'.place = w.place ∧ w'.blocking = w.blocking ∧
    (∀ r, w'.log.count (.dropped r) = w.log.count (.dropped r)) ∧
    started w'.svc.log = started w.svc.log

theorem Same.refl {w : W} (h : w.present = false) : Same w w := ⟨h, rfl, rfl, fun _ => rfl, rfl⟩

theorem Same.trans {a b c : W} (h : Same a b) (h' : Same b c) : Same a c :=
  ⟨h'.1, h'.2.1.trans h.2.1, h'.2.2.1.trans h.2.2.1, fun r => (h'.2.2.2.1 r).trans (h.2.2.2.1 r),
    h'.2.2.2.2.trans h.2.2.2.2⟩

theorem goneStep_started (v : Svc) (e : Verif.Delivery.Ev) :
    started (goneStep v e).log = started v.log := by
  cases e with
  | arrive a b c => rfl
  | finish id =>
    simp only [goneStep]
    split <;> simp
  | cancelDone id =>
    simp only [goneStep]
    split
    · rfl
    · dsimp only
      split <;> simp
  | unblock => rfl
  | cancelNow => rfl
  | cleanup source session =>
    simp only [goneStep, Svc.cleanTasks]
    split
    · rfl
    · rfl
    · simp [started, List.filterMap_append, List.filterMap_map, Function.comp_def]
  | sever s => rfl

theorem disposeAll_same {w : W} (h : w.present = false) : Same w w.disposeAll :=
  ⟨h, rfl, rfl, fun r => by
    simp only [W.disposeAll, List.count_append]
    rw [count_emit_other w _ _ (by simp) (by simp)]
    rfl, rfl⟩

theorem inner_same {w w' : W} {e : Verif.Delivery.Ev} (h : w.present = false)
    (hs : w.inner e = some w') : Same w w' := by
  unfold W.inner at hs
  split at hs
  · cases hs; exact .refl h
  · rw [h] at hs
    cases hs
    exact ⟨rfl, rfl, rfl, fun _ => rfl, goneStep_started _ _⟩

theorem step_same {w w' : W} {e : Ev} (h : w.present = false) (hs : step w e = some w') :
    Same w w' := by
  cases e with
  | arrive r =>
    cases hs
    exact ⟨h, rfl, rfl, fun x => by simp, rfl⟩
  | execute node =>
    simp only [step, W.execute, h, Bool.false_eq_true, if_false, Option.some.injEq] at hs
    subst hs
    exact disposeAll_same h
  | inner e =>
    cases e with
    | arrive a b c => cases hs; exact .refl h
    | cleanup node session =>
      simp only [step] at hs
      refine Same.trans ?_ (inner_same (w := w.clearInputs node session) h hs)
      exact ⟨h, rfl, rfl, fun r => by
        simp only [W.clearInputs, List.count_append, count_cleared_dropped, Nat.add_zero], rfl⟩
    | finish id => exact inner_same h hs
    | cancelDone id => exact inner_same h hs
    | unblock => exact inner_same h hs
    | cancelNow => exact inner_same h hs
    | sever s => exact inner_same h hs
  | remove =>
    simp only [step, W.remove, h, Bool.false_eq_true, if_false, Option.some.injEq] at hs
    subst hs
    exact .refl h
  | collect =>
    simp only [step, Option.some.injEq] at hs
    subst hs
    unfold W.collect
    dsimp only
    split
    · exact ⟨h, rfl, rfl, fun _ => rfl, rfl⟩
    · exact disposeAll_same (w := { w with
        tracked := w.tracked || w.present
        signals := 0 }) h

theorem run_same (es : List Ev) : ∀ {w w' : W}, w.present = false → run w es = some w' →
    Same w w' := by
  induction es with
  | nil => intro w w' h hr; cases hr; exact .refl h
  | cons e es ih =>
    intro w w' h hr
    simp only [run] at hr
    split at hr
    · cases hr
    · rename_i w1 h1
      have s := step_same h h1
      exact s.trans (ih s.1 hr)

/-! ### Before the removal -/

theorem step_kept {w w' : W} {e : Ev} (hp : w.present = true) (he : e ≠ .remove)
    (hs : step w e = some w') :
    w'.present = true ∧ w'.place = w.place ∧ w'.blocking = w.blocking ∧
      (w.tracked = true → w'.tracked = true) := by
  have hin : ∀ {w w' : W} {e}, w.present = true → w.inner e = some w' →
      w'.present = true ∧ w'.place = w.place ∧ w'.blocking = w.blocking ∧
      (w.tracked = true → w'.tracked = true) := by
    intro w w' e hp hs
    unfold W.inner at hs
    split at hs
    · cases hs; exact ⟨hp, rfl, rfl, id⟩
    · rw [Option.map_eq_some_iff] at hs
      obtain ⟨v, _, rfl⟩ := hs
      exact ⟨hp, rfl, rfl, id⟩
  cases e with
  | arrive r => cases hs; exact ⟨hp, rfl, rfl, id⟩
  | execute node =>
    simp only [step, W.execute, hp, if_true] at hs
    split at hs
    · cases hs; exact ⟨hp, rfl, rfl, id⟩
    · split at hs
      · cases hs; exact ⟨rfl, rfl, rfl, id⟩
      · rw [Option.map_eq_some_iff] at hs
        obtain ⟨v, _, rfl⟩ := hs
        exact ⟨rfl, rfl, rfl, id⟩
  | inner e =>
    cases e with
    | arrive a b c => cases hs; exact ⟨hp, rfl, rfl, id⟩
    | cleanup node session =>
      simp only [step] at hs
      exact hin (w := w.clearInputs node session) hp hs
    | finish id => exact hin hp hs
    | cancelDone id => exact hin hp hs
    | unblock => exact hin hp hs
    | cancelNow => exact hin hp hs
    | sever s => exact hin hp hs
  | remove => exact absurd rfl he
  | collect =>
    simp only [step, Option.some.injEq] at hs
    subst hs
    unfold W.collect
    dsimp only
    split
    · exact ⟨hp, rfl, rfl, fun h => by simp [h]⟩
    · exact ⟨hp, rfl, rfl, fun h => by simp [W.disposeAll, h]⟩

theorem run_kept (es : List Ev) : ∀ {w w' : W}, w.present = true → .remove ∉ es →
    run w es = some w' →
    w'.present = true ∧ w'.place = w.place ∧ w'.blocking = w.blocking ∧
      (w.tracked = true → w'.tracked = true) := by
  induction es with
  | nil => intro w w' h _ hr; cases hr; exact ⟨h, rfl, rfl, id⟩
  | cons e es ih =>
    intro w w' h he hr
    simp only [run] at hr
    split at hr
    · cases hr
    · rename_i w1 h1
      obtain ⟨a1, a2, a3, a4⟩ := step_kept h (fun h' => he (h' ▸ List.mem_cons_self ..)) h1
      obtain ⟨b1, b2, b3, b4⟩ := ih a1 (fun h' => he (List.mem_cons_of_mem _ h')) hr
      exact ⟨b1, b2.trans a2, b3.trans a3, fun h => b4 (a4 h)⟩

theorem run_place (es : List Ev) : ∀ {w w' : W}, run w es = some w' → w'.place = w.place := by
  induction es with
  | nil => intro w w' hr; cases hr; rfl
  | cons e es ih =>
    intro w w' hr
    simp only [run] at hr
    split at hr
    · cases hr
    · rename_i w1 h1
      refine (ih hr).trans ?_
      cases hp : w.present
      · exact (step_same hp h1).2.1
      · by_cases he : e = .remove
        · subst he
          simp only [step, Option.some.injEq] at h1
          subst h1
          unfold W.remove
          split <;> rfl
        · exact (step_kept hp he h1).2.1

/-- What is lost by the removal. -/
theorem remove_dropped {w : W} (h : Inv w) (hp : w.present = true) (r : Req) :
    w.remove.log.count (.dropped r) = heldReqs w r := by
  unfold W.remove heldReqs
  rw [if_pos hp]
  by_cases hb : w.blocking = true
  · simp [hb, (h.here hp).2 r]
  · simp only [hb, Bool.false_eq_true, if_false, List.count_append, count_map_dropped,
      (h.here hp).2 r, Nat.zero_add]
    exact held_req r

theorem remove_absent (w : W) : w.remove.present = false := by
  unfold W.remove
  split
  · rfl
  · rename_i h
    simpa using h

/-! ### The message about the removal -/

theorem step_signal {w w' : W} {e : Ev} (hp : w.present = false) (he : e ≠ .collect)
    (hs : step w e = some w') : w'.signals = w.signals := by
  have hin : ∀ {w w' : W} {e}, w.present = false → w.inner e = some w' →
      w'.signals = w.signals := by
    intro w w' e hp hs
    unfold W.inner at hs
    split at hs
    · cases hs; rfl
    · rw [hp] at hs; cases hs; rfl
  cases e with
  | arrive r => cases hs; rfl
  | execute node =>
    simp only [step, W.execute, hp, Bool.false_eq_true, if_false, Option.some.injEq] at hs
    subst hs; rfl
  | inner e =>
    cases e with
    | arrive a b c => cases hs; rfl
    | cleanup node session =>
      simp only [step] at hs
      exact hin (w := w.clearInputs node session) hp hs
    | finish id => exact hin hp hs
    | cancelDone id => exact hin hp hs
    | unblock => exact hin hp hs
    | cancelNow => exact hin hp hs
    | sever s => exact hin hp hs
  | remove =>
    simp only [step, W.remove, hp, Bool.false_eq_true, if_false, Option.some.injEq] at hs
    subst hs; rfl
  | collect => exact absurd rfl he

theorem run_signal (es : List Ev) : ∀ {w w' : W}, w.present = false → .collect ∉ es →
    run w es = some w' → w'.signals = w.signals := by
  induction es with
  | nil => intro w w' _ _ hr; cases hr; rfl
  | cons e es ih =>
    intro w w' h he hr
    simp only [run] at hr
    split at hr
    · cases hr
    · rename_i w1 h1
      have a := step_signal h (fun h' => he (h' ▸ List.mem_cons_self ..)) h1
      have b := ih (step_same h h1).1 (fun h' => he (List.mem_cons_of_mem _ h')) hr
      exact b.trans a

end Verif.Gone
