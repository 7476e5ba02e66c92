import Verif.Trace.Spec
import Verif.Flush.Lemmas
import Verif.Input.Lemmas

/-
Lemmas about traces.
-/
namespace Verif.Trace

open Verif.Input Verif.Flush

set_option linter.unusedSectionVars false
set_option linter.unusedSimpArgs false

/-! ### Sessions -/

/-- The session with its ancestors, from the inside out. -/
inductive Up (parent : Nat → Option Nat) : Nat → List Nat → Prop where
  | root {s} : parent s = none → Up parent s [s]
  | step {s p l} : parent s = some p → Up parent p l → Up parent s (s :: l)

theorem Up.unique {parent : Nat → Option Nat} {s : Nat} {l l' : List Nat} (h : Up parent s l)
    (h' : Up parent s l') : l = l' := by
  induction h generalizing l' with
  | root h0 =>
    cases h' with
    | root _ => rfl
    | step h1 _ => rw [h0] at h1; cases h1
  | step h0 _ ih =>
    cases h' with
    | root h1 => rw [h0] at h1; cases h1
    | step h1 h2 =>
      rw [h0] at h1
      cases h1
      rw [ih h2]

theorem Up.head {parent : Nat → Option Nat} {s : Nat} {l : List Nat} (h : Up parent s l) :
    ∃ t, l = s :: t := by
  cases h with
  | root _ => exact ⟨_, rfl⟩
  | step _ _ => exact ⟨_, rfl⟩

theorem climb_of {parent : Nat → Option Nat} {s : Nat} {l : List Nat} (h : Up parent s l) :
    ∀ (fuel : Nat) (pushed : List Nat), l.length ≤ fuel →
      climb parent fuel s pushed = some (pushed ++ l.tail) := by
  induction h with
  | root h0 =>
    intro fuel pushed hf
    cases fuel with
    | zero => simp at hf
    | succ n => simp [climb, h0]
  | @step s p l h0 h1 ih =>
    intro fuel pushed hf
    cases fuel with
    | zero => simp at hf
    | succ n =>
      simp only [climb, h0]
      rw [ih n _ (by simpa using hf)]
      obtain ⟨t, rfl⟩ := h1.head
      simp

theorem Up.isStack {parent : Nat → Option Nat} {s : Nat} {l : List Nat} (h : Up parent s l) :
    IsStack parent s l.reverse := by
  induction h with
  | @root s h0 =>
    refine ⟨rfl, ⟨s, rfl, h0⟩, ?_⟩
    intro i a b _ h2
    cases i <;> simp at h2
  | @step s p l h0 h1 ih =>
    obtain ⟨hl, ⟨r, hr, hr0⟩, hc⟩ := ih
    rw [List.reverse_cons]
    refine ⟨by simp, ⟨r, ?_, hr0⟩, ?_⟩
    · cases hrev : l.reverse with
      | nil => rw [hrev] at hr; simp at hr
      | cons a t => rw [hrev] at hr; simpa using hr
    · intro i a b ha hb
      by_cases hi : i + 1 < l.reverse.length
      · rw [List.getElem?_append_left (by omega)] at ha
        rw [List.getElem?_append_left hi] at hb
        exact hc i a b ha hb
      · rw [List.getElem?_append_right (by omega)] at hb
        have hi1 : i + 1 - l.reverse.length = 0 := by
          rcases Nat.eq_zero_or_pos (i + 1 - l.reverse.length) with h | h
          · exact h
          · rw [List.getElem?_eq_none (by simp only [List.length_cons, List.length_nil]; omega)] at hb
            cases hb
        rw [hi1] at hb
        simp only [List.getElem?_cons_zero, Option.some.injEq] at hb
        subst hb
        have hil : i = l.reverse.length - 1 := by omega
        have hlt : i < l.reverse.length := by
          obtain ⟨t, rfl⟩ := h1.head
          simp at hil ⊢; omega
        rw [List.getElem?_append_left hlt, hil, ← List.getLast?_eq_getElem?, hl] at ha
        rw [← ha]
        exact h0

/-- What holds of the sessions at all times. -/
structure Good (f : Forest) : Prop where
  lt : ∀ x p, f.parent x = some p → p < f.next
  new : ∀ x, f.next ≤ x → f.parent x = none
  up : ∀ x, ∃ l, Up f.parent x l ∧ l.length ≤ f.next + 1

theorem Good.stack {f : Forest} (h : Good f) {s : Nat} {l : List Nat} (hu : Up f.parent s l) :
    f.stack s = some l.reverse := by
  obtain ⟨l', hu', hl⟩ := h.up s
  cases hu.unique hu'
  unfold Forest.stack
  rw [climb_of hu _ _ hl]
  obtain ⟨t, rfl⟩ := hu.head
  simp

theorem good_empty : Good Forest.empty :=
  ⟨by simp [Forest.empty], by simp [Forest.empty], fun x => ⟨[x], .root rfl, by simp⟩⟩

theorem Up.congr {f g : Nat → Option Nat} {n s : Nat} {l : List Nat} (h : Up f s l)
    (hs : s ≠ n) (hp : ∀ y p, f y = some p → p ≠ n) (hg : ∀ y, y ≠ n → g y = f y) : Up g s l := by
  induction h with
  | root h0 => exact .root (by rw [hg _ hs]; exact h0)
  | @step s p l h0 h1 ih => exact .step (by rw [hg _ hs]; exact h0) (ih (hp _ _ h0))

theorem Up.cut {f g : Nat → Option Nat} {s : Nat} {l : List Nat} (h : Up f s l)
    (hg : ∀ y, g y = f y ∨ g y = none) : ∃ l', Up g s l' ∧ l'.length ≤ l.length := by
  induction h with
  | @root s h0 =>
    refine ⟨[s], .root ?_, Nat.le_refl _⟩
    rcases hg s with h | h
    · rw [h]; exact h0
    · exact h
  | @step s p l h0 h1 ih =>
    rcases hg s with h | h
    · obtain ⟨l', hl, hn⟩ := ih
      exact ⟨s :: l', .step (by rw [h]; exact h0) hl, by simpa using hn⟩
    · exact ⟨[s], .root h, by simp⟩

theorem Up.graft {f g : Nat → Option Nat} {s t : Nat} {l : List Nat} (h : Up f s l)
    (ht : g t = none) (hg : ∀ y, g y = f y ∨ g y = some t) :
    ∃ l', Up g s l' ∧ l'.length ≤ l.length + 1 := by
  induction h with
  | @root s h0 =>
    rcases hg s with h | h
    · exact ⟨[s], .root (by rw [h]; exact h0), by simp⟩
    · exact ⟨[s, t], .step h (.root ht), by simp⟩
  | @step s p l h0 h1 ih =>
    rcases hg s with h | h
    · obtain ⟨l', hl, hn⟩ := ih
      exact ⟨s :: l', .step (by rw [h]; exact h0) hl, by simpa using hn⟩
    · refine ⟨[s, t], .step h (.root ht), ?_⟩
      obtain ⟨t', rfl⟩ := h1.head
      simp

theorem Good.apply {f : Forest} (h : Good f) (op : FOp) : Good (f.apply op) := by
  have cut : ∀ g : Nat → Option Nat, (∀ y, g y = f.parent y ∨ g y = none) → Good ⟨f.next, g⟩ := by
    intro g hg
    refine ⟨fun x p hx => ?_, fun x hx => ?_, fun x => ?_⟩
    · rcases hg x with h' | h'
      · exact h.lt x p (h' ▸ hx)
      · have : g x = some p := hx
        rw [h'] at this; cases this
    · rcases hg x with h' | h'
      · exact h'.trans (h.new x hx)
      · exact h'
    · obtain ⟨l, hl, hn⟩ := h.up x
      obtain ⟨l', hl', hn'⟩ := hl.cut hg
      exact ⟨l', hl', Nat.le_trans hn' hn⟩
  cases op with
  | root =>
    refine ⟨fun x p hx => Nat.lt_succ_of_lt (h.lt x p hx), fun x hx => h.new x (Nat.le_of_succ_le hx),
      fun x => ?_⟩
    obtain ⟨l, hl, hn⟩ := h.up x
    exact ⟨l, hl, Nat.le_succ_of_le hn⟩
  | child p =>
    by_cases hp : p < f.next
    · simp only [Forest.apply, hp, if_true]
      have hold : ∀ x l, x ≠ f.next → Up f.parent x l →
          Up (fun x => if x = f.next then some p else f.parent x) x l := by
        intro x l hx hl
        refine hl.congr hx (fun y q hy => ?_) (fun y hy => by simp [hy])
        exact Nat.ne_of_lt (h.lt y q hy)
      refine ⟨fun x q hx => ?_, fun x hx => ?_, fun x => ?_⟩
      · simp only at hx
        split at hx
        · cases hx; exact Nat.lt_succ_of_lt hp
        · exact Nat.lt_succ_of_lt (h.lt x q hx)
      · have : x ≠ f.next := by simp only at hx; omega
        simp only [this, if_false]
        exact h.new x (Nat.le_of_succ_le hx)
      · by_cases hx : x = f.next
        · subst hx
          obtain ⟨l, hl, hn⟩ := h.up p
          exact ⟨f.next :: l, .step (by simp) (hold p l (Nat.ne_of_lt hp) hl), by simpa using hn⟩
        · obtain ⟨l, hl, hn⟩ := h.up x
          exact ⟨l, hold x l hx hl, Nat.le_succ_of_le hn⟩
    · simp only [Forest.apply, hp, if_false]; exact h
  | extend c =>
    by_cases hc : c < f.next
    · simp only [Forest.apply, hc, if_true]
      have hnew : (fun x => if x = c then some f.next else f.parent x) f.next = none := by
        simp only [Ne.symm (Nat.ne_of_lt hc), if_false]
        exact h.new _ (Nat.le_refl _)
      refine ⟨fun x q hx => ?_, fun x hx => ?_, fun x => ?_⟩
      · simp only at hx
        split at hx
        · cases hx; exact Nat.lt_succ_self _
        · exact Nat.lt_succ_of_lt (h.lt x q hx)
      · have : x ≠ c := by simp only at hx; omega
        simp only [this, if_false]
        exact h.new x (Nat.le_of_succ_le hx)
      · obtain ⟨l, hl, hn⟩ := h.up x
        obtain ⟨l', hl', hn'⟩ := hl.graft
          (g := fun x => if x = c then some f.next else f.parent x) (t := f.next) hnew (fun y => by
            by_cases hy : y = c <;> simp [hy])
        exact ⟨l', hl', Nat.le_trans hn' (Nat.succ_le_succ hn)⟩
    · simp only [Forest.apply, hc, if_false]; exact h
  | detach c => exact cut _ (fun y => by by_cases hy : y = c <;> simp [hy])
  | despawn c =>
    exact cut _ (fun y => by by_cases hy : c ∈ (f.stack y).getD [] <;> simp [hy])

theorem Good.applyAll {f : Forest} (h : Good f) (ops : List FOp) : Good (f.applyAll ops) := by
  induction ops generalizing f with
  | nil => exact h
  | cons op ops ih => exact ih (h.apply op)

/-! ### The flush with another world -/

section Flush

variable {W V E : Type} [DecidableEq E]

/-- The same state with another world. -/
def mapWorld (g : W → V) (s : St W E) : St V E :=
  ⟨g s.world, s.roster, s.later, s.chan, s.wake, s.loopCount, s.received, s.params, s.phase⟩

theorem applyEffs_map (g : W → V) (fs : List (Eff E)) (s : St W E) :
    applyEffs (mapWorld g s) fs = (mapWorld g (applyEffs s fs).1, (applyEffs s fs).2) := by
  induction fs generalizing s with
  | nil => rfl
  | cons f fs ih =>
    have h : applyEff (mapWorld g s) f = (mapWorld g (applyEff s f).1, (applyEff s f).2) := by
      cases f <;> rfl
    simp only [applyEffs, h, ih]

theorem applyEffs_world (fs : List (Eff E)) (s : St W E) :
    (applyEffs s fs).1.world = s.world := by
  induction fs generalizing s with
  | nil => rfl
  | cons f fs ih =>
    simp only [applyEffs, ih]
    cases f <;> rfl

theorem perform_world (P : Prog W E) (c : Call E) (s : St W E) :
    (perform P c s).1.world = (P.call c s.world).1 := by
  simp only [perform, applyEffs_world]

theorem perform_map (P : Prog W E) (Q : Prog V E) (g : W → V) (c : Call E) (s : St W E)
    (h : Q.call c (g s.world) = (g (P.call c s.world).1, (P.call c s.world).2)) :
    perform Q c (mapWorld g s) = (mapWorld g (perform P c s).1, (perform P c s).2) := by
  simp only [perform, mapWorld, h]
  exact applyEffs_map g _ { s with world := (P.call c s.world).1 }

/-- What the flush calls in its next step, if anything. -/
def calling (s : St W E) : Option (Call E) :=
  match s.phase with
  | .recv => s.chan.head?.map .item
  | .services => some .services
  | .targets => some .targets
  | .dispose => s.roster.disposed.getLast?.map (.entry .disposed)
  | .despawn => s.roster.despawn.head?.map (.entry .despawn)
  | .cleanups _ => s.roster.cleanup.getLast?.map (.entry .cleanup)
  | .cancels _ => s.roster.cancel.head?.map (.entry .cancel)
  | .unblock => s.roster.unblock.head?.map (.entry .unblock)
  | .queue => s.roster.queue.head?.map (.entry .queue)
  | .awake => s.roster.awake.head?.map (.entry .awake)
  | _ => none

theorem tick_world (P : Prog W E) (s : St W E) :
    (tick P s).1.world = match calling s with
      | none => s.world
      | some c => (P.call c s.world).1 := by
  obtain ⟨w, ros, lat, ch, wk, lc, rc, pa, ph⟩ := s
  cases ph <;> simp only [tick, calling]
  case recv =>
    cases ch with
    | nil => rfl
    | cons x rest =>
      simp only [List.head?_cons, Option.map_some]
      split <;> exact perform_world P (.item x) _
  case services => exact perform_world P .services _
  case targets => exact perform_world P .targets _
  case dispose =>
    cases ros.disposed.getLast? with
    | none => rfl
    | some x => exact perform_world P _ _
  case despawn => cases ros.despawn with
    | nil => rfl
    | cons x rest => exact perform_world P _ _
  case cleanups ret => cases ros.cleanup.getLast? with
    | none => rfl
    | some x => exact perform_world P _ _
  case cancels ret => cases ros.cancel with
    | nil => rfl
    | cons x rest => exact perform_world P _ _
  case unblock => cases ros.unblock with
    | nil => rfl
    | cons x rest => exact perform_world P _ _
  case queue => cases ros.queue with
    | nil => rfl
    | cons x rest => exact perform_world P _ _
  case awake => cases ros.awake with
    | nil => rfl
    | cons x rest => exact perform_world P _ _
  case top => split <;> rfl
  case limit => split <;> rfl
  case queueCheck => split <;> rfl

theorem tick_map (P : Prog W E) (Q : Prog V E) (g : W → V)
    (hp : ∀ w, Q.params (g w) = P.params w) (s : St W E)
    (h : ∀ c, calling s = some c →
      Q.call c (g s.world) = (g (P.call c s.world).1, (P.call c s.world).2)) :
    tick Q (mapWorld g s) = (mapWorld g (tick P s).1, (tick P s).2) := by
  obtain ⟨w, ros, lat, ch, wk, lc, rc, pa, ph⟩ := s
  have pm := fun c => perform_map P Q g c
  cases ph
  case idle => simp [tick, mapWorld, hp]
  case recv =>
    cases ch with
    | nil => rfl
    | cons x rest =>
      have := pm (.item x) ⟨w, ros, lat, rest, wk, lc, rc, pa, .recv⟩ (h _ rfl)
      simp only [mapWorld] at this
      by_cases hr : reached pa.channelLimit rc = true <;> simp [tick, mapWorld, this, hr]
  case services =>
    have := pm .services ⟨w, ros.processDeferals, lat, ch, wk, lc, rc, pa, .services⟩ (h _ rfl)
    simp only [mapWorld] at this
    simp only [tick, mapWorld, this]
  case merge => rfl
  case targets =>
    have := pm .targets ⟨w, ros, lat, ch, wk, lc, rc, pa, .targets⟩ (h _ rfl)
    simp only [mapWorld] at this
    simp only [tick, mapWorld, this]
  case top => by_cases hr : ros.isEmpty = true <;> simp [tick, mapWorld, hr]
  case limit =>
    by_cases hr : reached (P.params w).loopLimit lc = true <;> simp [tick, mapWorld, hp, hr]
  case queueCheck =>
    by_cases hr : reached pa.loopLimit (lc + 1) = true <;> simp [tick, mapWorld, hr]
  case dispose =>
    cases hd : ros.disposed.getLast? with
    | none => simp only [tick, mapWorld, hd]
    | some x =>
      have := pm (.entry .disposed x) ⟨w, { ros with disposed := ros.disposed.dropLast }, lat, ch,
        wk, lc, rc, pa, .dispose⟩ (h _ (by simp [calling, hd]))
      simp only [mapWorld] at this
      simp only [tick, mapWorld, hd, runEntry, this]
  case despawn =>
    cases hd : ros.despawn with
    | nil => simp only [tick, mapWorld, hd]
    | cons x rest =>
      have := pm (.entry .despawn x) ⟨w, { ros with despawn := rest }, lat, ch,
        wk, lc, rc, pa, .despawn⟩ (h _ (by simp [calling, hd]))
      simp only [mapWorld] at this
      simp only [tick, mapWorld, hd, runEntry, this]
  case cleanups ret =>
    cases hd : ros.cleanup.getLast? with
    | none => simp only [tick, mapWorld, hd]
    | some x =>
      have := pm (.entry .cleanup x) ⟨w, { ros with cleanup := ros.cleanup.dropLast }, lat, ch,
        wk, lc, rc, pa, .cleanups ret⟩ (h _ (by simp [calling, hd]))
      simp only [mapWorld] at this
      simp only [tick, mapWorld, hd, runEntry, this]
  case cancels ret =>
    cases hd : ros.cancel with
    | nil => simp only [tick, mapWorld, hd]
    | cons x rest =>
      have := pm (.entry .cancel x) ⟨w, { ros with cancel := rest }, lat, ch,
        wk, lc, rc, pa, .cancels ret⟩ (h _ (by simp [calling, hd]))
      simp only [mapWorld] at this
      simp only [tick, mapWorld, hd, runEntry, this]
  case unblock =>
    cases hd : ros.unblock with
    | nil => simp only [tick, mapWorld, hd]
    | cons x rest =>
      have := pm (.entry .unblock x) ⟨w, { ros with unblock := rest }, lat, ch,
        wk, lc, rc, pa, .unblock⟩ (h _ (by simp [calling, hd]))
      simp only [mapWorld] at this
      simp only [tick, mapWorld, hd, runEntry, this]
  case queue =>
    cases hd : ros.queue with
    | nil => simp only [tick, mapWorld, hd]
    | cons x rest =>
      have := pm (.entry .queue x) ⟨w, { ros with queue := rest }, lat, ch,
        wk, lc, rc, pa, .queue⟩ (h _ (by simp [calling, hd]))
      simp only [mapWorld] at this
      simp only [tick, mapWorld, hd, runEntry, this]
  case awake =>
    cases hd : ros.awake with
    | nil => simp only [tick, mapWorld, hd]
    | cons x rest =>
      have := pm (.entry .awake x) ⟨w, { ros with awake := rest }, lat, ch,
        wk, lc, rc, pa, .awake⟩ (h _ (by simp [calling, hd]))
      simp only [mapWorld] at this
      simp only [tick, mapWorld, hd, runEntry, this]

end Flush

theorem Forest.Grown.good {f : Forest} (h : f.Grown) : Good f := by
  obtain ⟨ops, rfl⟩ := h
  exact good_empty.applyAll ops

theorem Forest.Grown.applyAll {f : Forest} (h : f.Grown) (ops : List FOp) :
    (f.applyAll ops).Grown := by
  obtain ⟨ops', rfl⟩ := h
  exact ⟨ops' ++ ops, by simp [Forest.applyAll]⟩

theorem Forest.Grown.stack {f : Forest} (h : f.Grown) (s : Nat) :
    ∃ st, f.stack s = some st ∧ IsStack f.parent s st := by
  obtain ⟨l, hl, _⟩ := h.good.up s
  exact ⟨l.reverse, h.good.stack hl, hl.isStack⟩

/-! ### Operations -/

variable {E T U I J X : Type} [DecidableEq E]

theorem takeInput_ok {n n' : Node Nat T} {i : Inp Nat T} (h : takeInput n = .ok (n', i)) :
    Input.pending n = i :: Input.pending n' := by
  unfold takeInput tryTakeInput at h
  cases hs : n.storage with
  | none => simp [hs] at h
  | some q =>
    simp only [hs] at h
    cases hl : q.getLast? with
    | none => simp [hl] at h
    | some x =>
      simp only [hl, Except.ok.injEq, Prod.mk.injEq] at h
      obtain ⟨rfl, rfl⟩ := h
      simp only [Input.pending, hs, Option.getD_some]
      have : q = q.dropLast ++ [x] := by
        have hne : q ≠ [] := by intro h0; rw [h0] at hl; cases hl
        rw [List.getLast?_eq_some_getLast hne] at hl
        cases hl
        exact (List.dropLast_concat_getLast hne).symm
      conv => lhs; rw [this]
      simp

theorem takeInput_error {n : Node Nat T} {x : Input.Err} (h : takeInput n = .error x) :
    Input.pending n = [] := by
  unfold takeInput tryTakeInput at h
  cases hs : n.storage with
  | none => simp [Input.pending, hs]
  | some q =>
    simp only [hs] at h
    cases hl : q.getLast? with
    | none =>
      rw [List.getLast?_eq_none_iff] at hl
      simp [Input.pending, hs, hl]
    | some x => simp [hl] at h

theorem started_base (w : World E T U I J X) (e : E) (i : Inp Nat T) :
    (started w e i).1.base = w.base ∧ (started w e i).1.forest = w.forest ∧
    (started w e i).1.trace = w.trace ∧ w.errors <+: (started w e i).1.errors ∧
    ((started w e i).2 = true ↔ (started w e i).1.errors = w.errors) := by
  unfold started
  split
  · simp
  · split
    · split <;> simp
    · simp

theorem call_other (A : App E T U I J X) (c : Call E) (w : World E T U I J X)
    (hc : ∀ e, c ≠ .entry .queue e) :
    A.prog.call c w = (A.after c w.base.user { w with base := (A.app.prog.call c w.base).1 },
      (A.app.prog.call c w.base).2) := by
  cases c with
  | entry k e =>
    cases k with
    | queue => exact absurd rfl (hc e)
    | _ => rfl
  | _ => rfl

theorem call_none (A : App E T U I J X) (e : E) (w : World E T U I J X) {x : Input.Err}
    (h : takeInput (w.base.nodes e) = .error x) :
    (A.prog.call (.entry .queue e) w).1 = w ∧
    A.app.prog.call (.entry .queue e) w.base =
      (w.base, (A.prog.call (.entry .queue e) w).2) := by
  simp only [App.prog, Sched.App.prog, h]
  cases x <;> exact ⟨rfl, rfl⟩

theorem call_some (A : App E T U I J X) (e : E) (w : World E T U I J X) {n : Node Nat T}
    {i : Inp Nat T} (h : takeInput (w.base.nodes e) = .ok (n, i)) :
    let st := started { w with base := Sched.setNode w.base e n } e i
    (st.2 = true → A.prog.call (.entry .queue e) w =
      (A.after (.entry .queue e) w.base.user
        { st.1 with base := (A.app.prog.call (.entry .queue e) w.base).1 },
        (A.app.prog.call (.entry .queue e) w.base).2)) ∧
    (st.2 = false → A.prog.call (.entry .queue e) w = (st.1, [.put .cancel e])) := by
  intro st
  have h1 : st.1.base = Sched.setNode w.base e n := (started_base _ _ _).1
  constructor
  · intro hs
    simp only [App.prog, Sched.App.prog, h]
    have hs' : (started { w with base := Sched.setNode w.base e n } e i).2 = true := hs
    have h1' : (started { w with base := Sched.setNode w.base e n } e i).1.base =
      Sched.setNode w.base e n := h1
    simp only [hs', if_true, h1']
    rfl
  · intro hs
    have hs' : (started { w with base := Sched.setNode w.base e n } e i).2 = false := hs
    simp only [App.prog, h, hs', Bool.false_eq_true, if_false]
    rfl

theorem call_cases (c : Call E) (w : World E T U I J X)
    {Q : Prop} (ho : (∀ e, c ≠ .entry .queue e) → Q)
    (hn : ∀ e x, c = .entry .queue e → takeInput (w.base.nodes e) = .error x → Q)
    (hs : ∀ e n i, c = .entry .queue e → takeInput (w.base.nodes e) = .ok (n, i) → Q) : Q := by
  by_cases h : ∃ e, c = .entry .queue e
  · obtain ⟨e, rfl⟩ := h
    cases ht : takeInput (w.base.nodes e) with
    | error x => exact hn e x rfl ht
    | ok p => exact hs e p.1 p.2 rfl ht
  · exact ho (fun e he => h ⟨e, he⟩)

theorem call_forest (A : App E T U I J X) (c : Call E) (w : World E T U I J X)
    (h : w.forest.Grown) : (A.prog.call c w).1.forest.Grown := by
  refine call_cases c w (fun hc => ?_) (fun e x hc ht => ?_) (fun e n i hc ht => ?_)
  · rw [call_other A c w hc]; exact h.applyAll _
  · subst hc; rw [(call_none A e w ht).1]; exact h
  · subst hc
    obtain ⟨h1, h2⟩ := call_some A e w ht
    obtain ⟨_, hf, _⟩ := started_base { w with base := Sched.setNode w.base e n } e i
    cases hs : (started { w with base := Sched.setNode w.base e n } e i).2 with
    | true =>
      rw [h1 hs]
      exact Forest.Grown.applyAll (by rw [hf]; exact h) _
    | false => rw [h2 hs]; rw [hf]; exact h

theorem call_errors (A : App E T U I J X) (c : Call E) (w : World E T U I J X) :
    w.errors <+: (A.prog.call c w).1.errors := by
  refine call_cases c w (fun hc => ?_) (fun e x hc ht => ?_) (fun e n i hc ht => ?_)
  · rw [call_other A c w hc]; exact List.prefix_refl _
  · subst hc; rw [(call_none A e w ht).1]; exact List.prefix_refl _
  · subst hc
    obtain ⟨h1, h2⟩ := call_some A e w ht
    obtain ⟨_, _, _, hf, _⟩ := started_base { w with base := Sched.setNode w.base e n } e i
    cases hs : (started { w with base := Sched.setNode w.base e n } e i).2 with
    | true => rw [h1 hs]; exact hf
    | false => rw [h2 hs]; exact hf

theorem call_plain (A : App E T U I J X) (c : Call E) (w : World E T U I J X)
    (h : (A.prog.call c w).1.errors = w.errors) :
    A.app.prog.call c w.base = ((A.prog.call c w).1.base, (A.prog.call c w).2) := by
  refine call_cases c w (fun hc => ?_) (fun e x hc ht => ?_) (fun e n i hc ht => ?_)
  · rw [call_other A c w hc]; rfl
  · subst hc
    have := call_none A e w ht
    rw [this.1]; exact this.2
  · subst hc
    obtain ⟨h1, h2⟩ := call_some A e w ht
    obtain ⟨_, _, _, _, h5⟩ := started_base { w with base := Sched.setNode w.base e n } e i
    cases hs : (started { w with base := Sched.setNode w.base e n } e i).2 with
    | true => rw [h1 hs]; rfl
    | false =>
      rw [h2 hs] at h
      rw [h5.2 h] at hs
      cases hs

/-- Which events a call-out sends. -/
theorem call_events (A : App E T U I J X) (c : Call E) (w : World E T U I J X) :
    (A.prog.call c w).1.events = w.events ++
      (match c with
        | .entry .queue e =>
          match (Input.pending (w.base.nodes e)).head?, w.trace e with
          | some i, some tr =>
            if tr.toggle.isOn then
              match tr.message i.data with
              | .ok m => [⟨e, (w.forest.stack i.session).getD [], tr.info, m⟩]
              | .error _ => []
            else []
          | _, _ => []
        | _ => []) := by
  refine call_cases c w (fun hc => ?_) (fun e x hc ht => ?_) (fun e n i hc ht => ?_)
  · rw [call_other A c w hc]
    split
    · rename_i e; exact absurd rfl (hc e)
    · simp [App.after]
  · subst hc
    rw [(call_none A e w ht).1]
    simp only [takeInput_error ht]
    simp
  · subst hc
    obtain ⟨h1, h2⟩ := call_some A e w ht
    simp only [takeInput_ok ht]
    have key : (A.prog.call (.entry .queue e) w).1.events =
        (started { w with base := Sched.setNode w.base e n } e i).1.events := by
      cases hs : (started { w with base := Sched.setNode w.base e n } e i).2 with
      | true => rw [h1 hs]; rfl
      | false => rw [h2 hs]
    rw [key]
    simp only [List.head?_cons, started]
    cases htr : w.trace e with
    | none => simp
    | some tr =>
      simp only
      by_cases hon : tr.toggle.isOn = true
      · simp only [hon, if_true]
        cases hm : tr.message i.data <;> simp
      · simp [hon]

/-- When a call-out reports an error. -/
theorem call_fails (A : App E T U I J X) (e : E) (w : World E T U I J X) {i : Inp Nat T}
    (hi : (Input.pending (w.base.nodes e)).head? = some i) {tr : Trace I T J X}
    (ht : w.trace e = some tr) (hon : tr.toggle.isOn = true) {x : X}
    (hm : tr.message i.data = .error x) :
    (A.prog.call (.entry .queue e) w).1.errors = w.errors ++ [x] := by
  simp only [App.prog]
  cases hk : takeInput (w.base.nodes e) with
  | error y => rw [takeInput_error hk] at hi; cases hi
  | ok p =>
    obtain ⟨n, j⟩ := p
    rw [takeInput_ok hk] at hi
    simp only [List.head?_cons, Option.some.injEq] at hi
    subst hi
    simp [started, ht, hon, hm]

/-! ### Steps and runs -/

theorem plain_eq (s : St (World E T U I J X) E) : plain s = mapWorld (·.base) s := rfl

theorem calling_queue (s : St (World E T U I J X) E) (e : E) :
    calling s = some (.entry .queue e) ↔ s.phase = .queue ∧ s.roster.queue.head? = some e := by
  obtain ⟨w, ros, lat, ch, wk, lc, rc, pa, ph⟩ := s
  cases ph <;> simp [calling]

theorem taking_eq (s : St (World E T U I J X) E) (e : E) (i : Inp Nat T) :
    taking (plain s) = some (e, i) ↔ calling s = some (.entry .queue e) ∧
      (Input.pending (s.world.base.nodes e)).head? = some i := by
  rw [calling_queue]
  obtain ⟨w, ros, lat, ch, wk, lc, rc, pa, ph⟩ := s
  simp only [taking, plain]
  cases ph <;> simp
  cases hq : ros.queue with
  | nil => simp
  | cons a l =>
    simp only [List.head?_cons, Option.some.injEq]
    constructor
    · intro h
      cases hp : (Input.pending (w.base.nodes a)).head? with
      | none => rw [hp] at h; simp at h
      | some j =>
        rw [hp] at h
        simp only [Option.map_some, Option.some.injEq, Prod.mk.injEq] at h
        obtain ⟨rfl, rfl⟩ := h
        exact ⟨rfl, hp⟩
    · rintro ⟨rfl, h⟩
      rw [h]; rfl

theorem step_forest (A : App E T U I J X) (s : St (World E T U I J X) E) (v : Ev E T U I J X)
    (h : s.world.forest.Grown) : (Flush.step A.prog s v.up).1.world.forest.Grown := by
  cases v with
  | tick =>
    simp only [Ev.up, Flush.step]
    rw [tick_world]
    split
    · exact h
    · exact call_forest A _ _ h
  | env f ss g l c w =>
    simp only [Ev.up, Flush.step, applyEffs_world]
    exact h.applyAll ss

theorem step_errors (A : App E T U I J X) (s : St (World E T U I J X) E) (v : Ev E T U I J X) :
    s.world.errors <+: (Flush.step A.prog s v.up).1.world.errors := by
  cases v with
  | tick =>
    simp only [Ev.up, Flush.step]
    rw [tick_world]
    split
    · exact List.prefix_refl _
    · exact call_errors A _ _
  | env f ss g l c w =>
    simp only [Ev.up, Flush.step, applyEffs_world]
    exact List.prefix_refl _

theorem run_errors (A : App E T U I J X) (vs : List (Ev E T U I J X))
    (s : St (World E T U I J X) E) :
    s.world.errors <+: (Flush.run A.prog s (vs.map Ev.up)).1.world.errors := by
  induction vs generalizing s with
  | nil => exact List.prefix_refl _
  | cons v vs ih =>
    simp only [List.map_cons, Flush.run]
    exact (step_errors A s v).trans (ih _)

/-- Without a failure in the whole run there is none in the first step and none afterwards. -/
theorem run_quiet (A : App E T U I J X) (v : Ev E T U I J X) (vs : List (Ev E T U I J X))
    (s : St (World E T U I J X) E)
    (h : (Flush.run A.prog s ((v :: vs).map Ev.up)).1.world.errors = s.world.errors) :
    (Flush.step A.prog s v.up).1.world.errors = s.world.errors ∧
    (Flush.run A.prog (Flush.step A.prog s v.up).1 (vs.map Ev.up)).1.world.errors =
      (Flush.step A.prog s v.up).1.world.errors := by
  have h1 := step_errors A s v
  have h2 := run_errors A vs (Flush.step A.prog s v.up).1
  simp only [List.map_cons, Flush.run] at h
  have e : (Flush.step A.prog s v.up).1.world.errors = s.world.errors := by
    refine List.IsPrefix.eq_of_length ?_ ?_ |>.symm
    · exact h1
    · have l1 := h1.length_le
      have l2 := h2.length_le
      rw [h] at l2
      omega
  exact ⟨e, h.trans e.symm⟩

theorem step_plain (A : App E T U I J X) (s : St (World E T U I J X) E) (v : Ev E T U I J X)
    (h : (Flush.step A.prog s v.up).1.world.errors = s.world.errors) :
    Flush.step A.app.prog (plain s) v.down =
      (plain (Flush.step A.prog s v.up).1, (Flush.step A.prog s v.up).2) := by
  cases v with
  | tick =>
    simp only [Ev.up, Ev.down, Flush.step] at h ⊢
    rw [plain_eq, plain_eq]
    refine tick_map A.prog A.app.prog (·.base) (fun w => rfl) s (fun c hc => ?_)
    rw [tick_world, hc] at h
    exact call_plain A c s.world h
  | env f ss g l c w =>
    simp only [Ev.up, Ev.down, Flush.step]
    rw [plain_eq, plain_eq]
    exact applyEffs_map (fun x : World E T U I J X => x.base) _
      { s with
        world := { s.world with
          base := f s.world.base
          forest := s.world.forest.applyAll ss
          trace := g s.world.trace }
        chan := s.chan ++ c
        wake := s.wake ++ w }

theorem step_events (A : App E T U I J X) (s : St (World E T U I J X) E) (v : Ev E T U I J X) :
    (Flush.step A.prog s v.up).1.world.events = s.world.events ++
      (match v, taking (plain s) with
        | .tick, some (e, i) =>
          match s.world.trace e with
          | some tr =>
            if tr.toggle.isOn then
              match tr.message i.data with
              | .ok m => [⟨e, (s.world.forest.stack i.session).getD [], tr.info, m⟩]
              | .error _ => []
            else []
          | none => []
        | _, _ => []) := by
  cases v with
  | env f ss g l c w => simp [Ev.up, Flush.step, applyEffs_world]
  | tick =>
    simp only [Ev.up, Flush.step]
    rw [tick_world]
    cases ht : taking (plain s) with
    | some p =>
      obtain ⟨e, i⟩ := p
      obtain ⟨hc, hi⟩ := (taking_eq s e i).1 ht
      rw [hc]
      simp only
      rw [call_events]
      simp only [hi]
      cases s.world.trace e <;> rfl
    | none =>
      cases hc : calling s with
      | none => simp
      | some c =>
        simp only
        rw [call_events]
        split
        · rename_i e
          cases hi : (Input.pending (s.world.base.nodes e)).head? with
          | none => simp
          | some i =>
            have := (taking_eq s e i).2 ⟨hc, hi⟩
            rw [ht] at this; cases this
        · simp

theorem step_fails (A : App E T U I J X) (s : St (World E T U I J X) E) {e : E} {i : Inp Nat T}
    (ht : taking (plain s) = some (e, i)) {tr : Trace I T J X} (htr : s.world.trace e = some tr)
    (hon : tr.toggle.isOn = true) {x : X} (hm : tr.message i.data = .error x) :
    (Flush.step A.prog s (.tick : Flush.Ev _ E)).1.world.errors = s.world.errors ++ [x] := by
  obtain ⟨hc, hi⟩ := (taking_eq s e i).1 ht
  simp only [Flush.step]
  rw [tick_world, hc]
  exact call_fails A e s.world hi htr hon hm

theorem message_shown {tr : Trace I T J X} {d : T} {m : Option J} (h : tr.message d = .ok m) :
    m = shown tr d := by
  unfold Trace.message at h
  unfold shown
  cases ht : tr.toggle <;> simp [ht, Toggle.withMessages] at h ⊢
  · exact h.symm
  · exact h.symm
  · cases hs : tr.ser with
    | none => simp [hs] at h; simp [← h]
    | some f =>
      simp only [hs] at h
      cases hf : f d with
      | ok j => simp only [hf, Except.ok.injEq] at h; simp [← h, Except.toOption, hf]
      | error x => simp [hf] at h

end Verif.Trace
