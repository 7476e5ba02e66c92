import Verif.Buffer.Spec

/- Helper lemmas for the buffer properties. -/
namespace Verif.Buffer

set_option linter.unusedSectionVars false
set_option linter.unnecessarySimpa false

variable {S T : Type} [DecidableEq S]

/-- The specification state represented by a storage. -/
def abs (b : Storage S T) : SpecState S T :=
  { retention := b.retention, content := fun s => (b.queues s).map List.reverse }

theorem abs_set (b : Storage S T) (s : S) (q : Option (List T)) :
    abs (b.set s q) = (abs b).set s (q.map List.reverse) := by
  simp only [abs, Storage.set, SpecState.set, SpecState.mk.injEq, true_and]
  funext s'
  split <;> rfl

theorem set_self (b : SpecState S T) (s : S) (l : Option (List T)) (h : b.content s = l) :
    b.set s l = b := by
  cases b with
  | mk r c =>
    simp only [SpecState.set, SpecState.mk.injEq, true_and]
    funext s'
    split
    · rename_i e; rw [e]; exact h.symm
    · rfl

theorem reverse_modify (q : List T) (i : Nat) (g : T → T) (h : i < q.length) :
    (q.modify i g).reverse = q.reverse.modify (q.length - i - 1) g := by
  apply List.ext_getElem?
  intro j
  by_cases hj : j < q.length
  · rw [List.getElem?_reverse (by simpa using hj), List.getElem?_modify, List.getElem?_modify,
      List.getElem?_reverse hj]
    simp only [List.length_modify]
    by_cases hij : i = q.length - 1 - j
    · have : q.length - i - 1 = j := by omega
      simp [hij, show q.length - (q.length - 1 - j) - 1 = j by omega]
    · have : q.length - i - 1 ≠ j := by omega
      simp [hij, this]
  · rw [List.getElem?_eq_none (by simp; omega), List.getElem?_eq_none (by simp; omega)]

theorem reverse_modify_zero (q : List T) (g : T → T) :
    (q.modify 0 g).reverse = q.reverse.modify (q.length - 1) g := by
  cases q with
  | nil => rfl
  | cons a q => simpa using reverse_modify (a :: q) 0 g (by simp)

theorem reverse_modify_last (q : List T) (g : T → T) :
    (q.modify (q.length - 1) g).reverse = q.reverse.modify 0 g := by
  cases q with
  | nil => rfl
  | cons a q =>
    have := reverse_modify (a :: q) ((a :: q).length - 1) g (by simp)
    rw [this]
    congr 1
    simp

theorem implPush_reverse (q : List T) (r : Retention) (v : T)
    (h : r = .keepLast 0 → q = []) :
    ((implPush q r v).1.reverse, (implPush q r v).2) = specPush r q.reverse v := by
  cases r with
  | keepAll => simp [implPush, specPush]
  | keepFirst n =>
    simp only [implPush, specPush, List.length_reverse]
    split <;> split <;> simp_all
    · omega
  | keepLast n =>
    simp only [implPush, specPush, List.length_reverse, vecPop]
    by_cases hn : n = 0
    · subst hn; have := h rfl; subst this; simp
    · by_cases hl : n ≤ q.length
      · have h1 : n > 0 ∧ q.length ≥ n := ⟨by omega, hl⟩
        have h2 : ¬ q.length < n := by omega
        have hq : q ≠ [] := by rintro rfl; simp at hl; omega
        rw [if_pos h1, if_neg h2]
        have hr : q.reverse ≠ [] := by simpa using hq
        rw [List.tail_append_of_ne_nil hr, List.head?_append]
        have : q.reverse.head? = q.getLast? := by simp
        rw [this]
        cases hg : q.getLast? with
        | none => exact absurd (List.getLast?_eq_none_iff.mp hg) hq
        | some a => simp
      · have h1 : ¬ (n > 0 ∧ q.length ≥ n) := by omega
        rw [if_neg h1, if_neg hn, if_pos (by omega)]
        simp

theorem implPushOldest_reverse (q : List T) (r : Retention) (v : T)
    (h : r ≠ .keepFirst 0) :
    ((implPushOldest q r v).1.reverse, (implPushOldest q r v).2)
      = specPushOldest r q.reverse v := by
  cases r with
  | keepAll => simp [implPushOldest, specPushOldest]
  | keepLast n =>
    simp only [implPushOldest, specPushOldest, List.length_reverse]
    split <;> split <;> simp_all
    · omega
  | keepFirst n =>
    have hn : n ≠ 0 := by rintro rfl; exact h rfl
    simp only [implPushOldest, specPushOldest, List.length_reverse]
    by_cases hl : n ≤ q.length
    · have hq : q ≠ [] := by rintro rfl; simp at hl; omega
      have hr : q.reverse ≠ [] := by simpa using hq
      rw [if_pos (by omega), if_neg (by omega)]
      simp [List.dropLast_cons_of_ne_nil hr, List.getLast?_cons]
      cases q with
      | nil => exact absurd rfl hq
      | cons a q => simp
    · rw [if_neg (by omega), if_pos (by omega)]
      simp

/-- Capacity invariant. -/
def Inv (b : Storage S T) : Prop := ∀ s q, b.queues s = some q → fits b.retention q

theorem step_retention (b : Storage S T) (s : S) (op : Op T) :
    (step b s op).1.retention = b.retention := by
  cases op <;>
    simp only [step, Storage.forcePush, Storage.push, Storage.pushAsOldest, Storage.pull,
      Storage.pullNewest, Storage.consume, Storage.clearSession, Storage.ensureSession,
      Storage.drainAll, Storage.drain, Storage.iterMut, Storage.oldestMut, Storage.newestMut,
      Storage.newestMutOrElse, Storage.getMut]
  case drain lo hi =>
    cases b.queues s with
    | none => rfl
    | some q =>
      by_cases hc : lo ≤ hi ∧ hi ≤ q.length
      · simp [hc, Storage.set]
      · simp [hc]
  all_goals (repeat' split)
  all_goals simp [Storage.set]

theorem fits_implPush (q : List T) (r : Retention) (v : T) (h : fits r q) :
    fits r (implPush q r v).1 := by
  intro n hn
  have hh := h n hn
  cases r with
  | keepAll => cases hn
  | keepFirst m =>
    cases hn
    simp only [implPush]
    split
    · exact hh
    · simp; omega
  | keepLast m =>
    cases hn
    simp only [implPush, vecPop]
    split
    · simp; omega
    · split
      · exact hh
      · simp; omega

theorem fits_implPushOldest (q : List T) (r : Retention) (v : T) (h : fits r q)
    (h0 : r ≠ .keepFirst 0) : fits r (implPushOldest q r v).1 := by
  intro n hn
  have hh := h n hn
  cases r with
  | keepAll => cases hn
  | keepFirst m =>
    cases hn
    have : n ≠ 0 := by rintro rfl; exact h0 rfl
    simp only [implPushOldest]
    split
    · simp; omega
    · simp; omega
  | keepLast m =>
    cases hn
    simp only [implPushOldest]
    split
    · exact hh
    · simp; omega

theorem fits_of_length_le {r : Retention} {q q' : List T} (h : fits r q)
    (hl : q'.length ≤ q.length) : fits r q' := fun n hn => Nat.le_trans hl (h n hn)

theorem fits_nil (r : Retention) : fits r ([] : List T) := fun _ _ => Nat.zero_le _

theorem inv_set {b : Storage S T} {s : S} {q : Option (List T)} (h : Inv b)
    (hq : ∀ l, q = some l → fits b.retention l) : Inv (b.set s q) := by
  intro s' l hl
  simp only [Storage.set] at hl ⊢
  split at hl
  · exact hq l hl
  · exact h s' l hl

theorem getD_fits {b : Storage S T} (h : Inv b) (s : S) :
    fits b.retention ((b.queues s).getD []) := by
  cases hq : b.queues s with
  | none => exact fits_nil _
  | some q => exact h s q hq

theorem step_inv (b : Storage S T) (s : S) (op : Op T) (h : Inv b)
    (h0 : b.retention = .keepFirst 0 → notPushAsOldest op = true) : Inv (step b s op).1 := by
  cases op <;> simp only [step]
  case forcePush v =>
    simp only [Storage.forcePush]
    exact inv_set h (by
      intro l hl; cases hl
      exact fits_implPush _ _ _ (getD_fits h s))
  case push v =>
    simp only [Storage.push]
    split
    · exact h
    · rename_i q hq
      exact inv_set h (by intro l hl; cases hl; exact fits_implPush _ _ _ (h s q hq))
  case pushAsOldest v =>
    simp only [Storage.pushAsOldest]
    split
    · exact h
    · rename_i q hq
      exact inv_set h (by
        intro l hl; cases hl
        refine fits_implPushOldest _ _ _ (h s q hq) ?_
        intro h'
        simpa [notPushAsOldest] using h0 h')
  case pull =>
    simp only [Storage.pull]
    split
    · exact h
    · rename_i q hq
      exact inv_set h (by
        intro l hl; cases hl
        exact fits_of_length_le (h s q hq) (by simp [vecPop]))
  case pullNewest =>
    simp only [Storage.pullNewest]
    split
    · exact h
    · exact h
    · rename_i v q hq
      exact inv_set h (by
        intro l hl; cases hl
        exact fits_of_length_le (h s _ hq) (by simp))
  case consume =>
    simp only [Storage.consume]
    split
    · exact h
    · exact inv_set h (by intro l hl; cases hl; exact fits_nil _)
  case clear => exact inv_set h (by intro l hl; cases hl)
  case ensure =>
    exact inv_set h (by intro l hl; cases hl; exact getD_fits h s)
  case drainAll =>
    simp only [Storage.drainAll]
    split
    · exact h
    · exact inv_set h (by intro l hl; cases hl; exact fits_nil _)
  case drain lo hi =>
    simp only [Storage.drain]
    cases hq : b.queues s with
    | none => exact h
    | some q =>
      by_cases hc : lo ≤ hi ∧ hi ≤ q.length
      · simp only [hc, and_self, if_true]
        exact inv_set h (by
          intro l hl; cases hl
          exact fits_of_length_le (h s q hq) (by simp; omega))
      · simp only [hc, if_false]; exact h
  case iterMut g =>
    simp only [Storage.iterMut]
    split
    · exact h
    · rename_i q hq
      exact inv_set h (by
        intro l hl; cases hl
        exact fits_of_length_le (h s q hq) (by simp))
  case oldestMut g =>
    simp only [Storage.oldestMut]
    split
    · exact h
    · rename_i q hq
      exact inv_set h (by
        intro l hl; cases hl
        exact fits_of_length_le (h s q hq) (by simp))
  case newestMut g =>
    simp only [Storage.newestMut]
    split
    · exact h
    · rename_i q hq
      exact inv_set h (by
        intro l hl; cases hl
        exact fits_of_length_le (h s q hq) (by simp))
  case newestMutOrElse v g =>
    simp only [Storage.newestMutOrElse]
    split
    · exact h
    · rename_i q hq
      refine inv_set h ?_
      intro l hl
      cases hl
      refine fits_of_length_le (q := if q.isEmpty then (implPush q b.retention v).1 else q) ?_
        (by simp)
      split
      · exact fits_implPush _ _ _ (h s q hq)
      · exact h s q hq
  case getMut i g =>
    simp only [Storage.getMut]
    split
    · exact h
    · rename_i q hq
      split
      · exact h
      · exact inv_set h (by
          intro l hl; cases hl
          exact fits_of_length_le (h s q hq) (by simp))
  all_goals exact h

theorem inv_keepLast_zero {b : Storage S T} (h : Inv b) (s : S) (q : List T)
    (hq : b.queues s = some q) (hr : b.retention = .keepLast 0) : q = [] := by
  have := h s q hq 0 (by rw [hr]; rfl)
  exact List.eq_nil_of_length_eq_zero (by omega)

/-- One call refines the specification. -/
theorem step_refines (b : Storage S T) (s : S) (op : Op T) (h : Inv b)
    (h0 : b.retention = .keepFirst 0 → notPushAsOldest op = true)
    (hd : notRangedDrain op = true) :
    (abs (step b s op).1, (step b s op).2) = specStep (abs b) s op := by
  have hc : (abs b).content s = (b.queues s).map List.reverse := rfl
  have hret : (abs b).retention = b.retention := rfl
  cases op
  case forcePush v =>
    simp only [step, specStep, Storage.forcePush, abs_set, hc, hret]
    have key := implPush_reverse ((b.queues s).getD []) b.retention v (by
      intro hr
      cases hq : b.queues s with
      | none => rfl
      | some q => exact inv_keepLast_zero h s q hq hr)
    have e : ((b.queues s).map List.reverse).getD [] = ((b.queues s).getD []).reverse := by
      cases b.queues s <;> rfl
    rw [e, ← key]; rfl
  case push v =>
    simp only [step, specStep, Storage.push, hc, hret]
    cases hq : b.queues s with
    | none => rfl
    | some q =>
      have key := implPush_reverse q b.retention v (inv_keepLast_zero h s q hq)
      simp only [Option.map_some, abs_set]
      rw [← key]
  case pushAsOldest v =>
    simp only [step, specStep, Storage.pushAsOldest, hc, hret]
    cases hq : b.queues s with
    | none => rfl
    | some q =>
      have key := implPushOldest_reverse q b.retention v (by
        intro h'; simpa [notPushAsOldest] using h0 h')
      simp only [Option.map_some, abs_set]
      rw [← key]
  case pull =>
    simp only [step, specStep, Storage.pull, hc]
    cases hq : b.queues s with
    | none => simp [set_self (abs b) s none (by simp [hc, hq])]
    | some q => simp [abs_set, vecPop]
  case pullNewest =>
    simp only [step, specStep, Storage.pullNewest, hc]
    cases hq : b.queues s with
    | none => simp [set_self (abs b) s none (by simp [hc, hq])]
    | some q =>
      cases q with
      | nil => simp [set_self (abs b) s (some []) (by simp [hc, hq])]
      | cons a q => simp [abs_set]
  case consume =>
    simp only [step, specStep, Storage.consume, hc]
    cases hq : b.queues s with
    | none => simp [set_self (abs b) s none (by simp [hc, hq])]
    | some q => simp [abs_set]
  case clear => simp [step, specStep, Storage.clearSession, abs_set]
  case ensure =>
    simp only [step, specStep, Storage.ensureSession, hc, abs_set]
    cases b.queues s <;> rfl
  case drainAll =>
    simp only [step, specStep, Storage.drainAll, hc]
    cases hq : b.queues s with
    | none => simp [set_self (abs b) s none (by simp [hc, hq])]
    | some q => simp [abs_set]
  case drain lo hi => cases hd
  case readAll =>
    simp only [step, specStep, Storage.iter, hc]
    cases b.queues s <;> rfl
  case count =>
    simp only [step, specStep, Storage.count, hc]
    cases b.queues s <;> simp
  case oldest =>
    simp only [step, specStep, Storage.oldest, hc]
    cases b.queues s <;> simp
  case newest =>
    simp only [step, specStep, Storage.newest, hc]
    cases b.queues s <;> simp
  case get i =>
    simp only [step, specStep, Storage.get, hc]
    cases hq : b.queues s with
    | none => rfl
    | some q =>
      by_cases hl : q.length ≤ i
      · simp [hl]
      · simp only [hl, if_false, Option.map_some, Option.bind_some]
        rw [List.getElem?_reverse (by omega), show q.length - i - 1 = q.length - 1 - i by omega]
  case iterMut g =>
    simp only [step, specStep, Storage.iterMut, hc]
    cases hq : b.queues s with
    | none => simp [set_self (abs b) s none (by simp [hc, hq])]
    | some q => simp [abs_set]
  case oldestMut g =>
    simp only [step, specStep, Storage.oldestMut, hc]
    cases hq : b.queues s with
    | none => simp [set_self (abs b) s none (by simp [hc, hq])]
    | some q => simp [abs_set, reverse_modify_last]
  case newestMut g =>
    simp only [step, specStep, Storage.newestMut, hc]
    cases hq : b.queues s with
    | none => simp [set_self (abs b) s none (by simp [hc, hq])]
    | some q => simp [abs_set, reverse_modify_zero]
  case newestMutOrElse v g =>
    simp only [step, specStep, Storage.newestMutOrElse, hc, hret]
    cases hq : b.queues s with
    | none => rfl
    | some q =>
      have key := implPush_reverse q b.retention v (inv_keepLast_zero h s q hq)
      have key1 : (specPush b.retention q.reverse v).1 = (implPush q b.retention v).1.reverse := by
        rw [← key]
      have e : (if q.reverse.isEmpty then (specPush b.retention q.reverse v).1 else q.reverse)
          = (if q.isEmpty then (implPush q b.retention v).1 else q).reverse := by
        rw [key1]; simp only [List.isEmpty_reverse]; split <;> rfl
      simp only [Option.map_some, abs_set]
      rw [e, reverse_modify_zero]
      simp
  case getMut i g =>
    simp only [step, specStep, Storage.getMut, hc]
    cases hq : b.queues s with
    | none => simp [set_self (abs b) s none (by simp [hc, hq])]
    | some q =>
      by_cases hl : q.length ≤ i
      · have : q.reverse.modify i g = q.reverse := by
          apply List.ext_getElem?
          intro j
          rw [List.getElem?_modify]
          by_cases hij : i = j
          · subst hij; simp [hl]
          · simp [hij]
        simp [hl, this, set_self (abs b) s (some q.reverse) (by simp [hc, hq])]
      · simp only [hl, if_false, Option.map_some, Option.bind_some, abs_set]
        rw [reverse_modify _ _ _ (by omega), List.getElem?_reverse (by omega),
          show q.length - i - 1 = q.length - 1 - i by omega,
          show q.length - (q.length - 1 - i) - 1 = i by omega]

theorem inv_new (r : Retention) : Inv (Storage.new r : Storage S T) := by
  intro s q h; cases h

theorem step_frame (b : Storage S T) (s s' : S) (op : Op T) (h : s' ≠ s) :
    (step b s op).1.queues s' = b.queues s' := by
  cases op <;>
    simp only [step, Storage.forcePush, Storage.push, Storage.pushAsOldest, Storage.pull,
      Storage.pullNewest, Storage.consume, Storage.clearSession, Storage.ensureSession,
      Storage.drainAll, Storage.drain, Storage.iterMut, Storage.oldestMut, Storage.newestMut,
      Storage.newestMutOrElse, Storage.getMut]
  case drain lo hi =>
    cases b.queues s with
    | none => rfl
    | some q =>
      by_cases hc : lo ≤ hi ∧ hi ≤ q.length
      · simp [hc, Storage.set, h]
      · simp [hc]
  all_goals (repeat' split)
  all_goals simp [Storage.set, h]

theorem run_inv (b : Storage S T) (ops : List (S × Op T)) (h : Inv b)
    (hr : Regular b.retention ops) : Inv (run b ops).1 := by
  induction ops generalizing b with
  | nil => exact h
  | cons c ops ih =>
    obtain ⟨s, op⟩ := c
    refine ih (step b s op).1 (step_inv b s op h fun e => hr e (s, op) (by simp)) ?_
    rw [step_retention]
    intro e c hc
    exact hr e c (by simp [hc])

theorem run_retention (b : Storage S T) (ops : List (S × Op T)) :
    (run b ops).1.retention = b.retention := by
  induction ops generalizing b with
  | nil => rfl
  | cons c ops ih => exact (ih _).trans (step_retention _ _ _)

theorem run_append (b : Storage S T) (l l' : List (S × Op T)) :
    (run b (l ++ l')).1 = (run (run b l).1 l').1 := by
  induction l generalizing b with
  | nil => rfl
  | cons c l ih => exact ih _

theorem specPush_window (r : Retention) (l : List T) (v : T) :
    (specPush r (window r l) v).1 = window r (l ++ [v]) := by
  cases r with
  | keepAll => rfl
  | keepFirst n =>
    simp only [specPush, window, List.length_take]
    split
    · have h : l.length < n := by omega
      rw [List.take_of_length_le (by omega), List.take_of_length_le (by simp; omega)]
    · rw [List.take_append_of_le_length (by omega)]
  | keepLast n =>
    simp only [specPush, window, List.length_drop, List.length_append, List.length_cons,
      List.length_nil]
    split
    · have h : l.length < n := by omega
      rw [show l.length - n = 0 by omega, show l.length + (0 + 1) - n = 0 by omega]
      simp
    · by_cases hn : n = 0
      · subst hn; simp
      · rw [show l.length + (0 + 1) - n = (l.length - n) + 1 by omega, ← List.tail_drop,
          List.drop_append_of_le_length (by omega)]

theorem window_of_fits (r : Retention) (l : List T) (h : fits r l) : window r l = l := by
  cases r with
  | keepAll => rfl
  | keepFirst n => exact List.take_of_length_le (h n rfl)
  | keepLast n =>
    have := h n rfl
    simp [window, show l.length - n = 0 by omega]

/-- The step lemma behind C01. -/
theorem pushes_window (r : Retention) (ops : List (S × Op T)) (s : S) (b : Storage S T)
    (past : List T) (hb : b.retention = r) (hi : Inv b)
    (hc : b.queues s = some (window r past).reverse)
    (hs : ∀ op, (s, op) ∈ ops → ∃ v, op = .forcePush v ∨ op = .push v)
    (hreg : Regular r ops) :
    (run b ops).1.iter s = window r (past ++ pushedTo s ops) := by
  induction ops generalizing b past with
  | nil => simp [run, Storage.iter, hc, pushedTo]
  | cons c ops ih =>
    obtain ⟨s', op⟩ := c
    have hreg' : Regular r ops := fun e c hc' => hreg e c (by simp [hc'])
    have hinv' : Inv (step b s' op).1 :=
      step_inv b s' op hi fun e => hreg (hb ▸ e) (s', op) (by simp)
    have hret : (step b s' op).1.retention = r := by rw [step_retention, hb]
    have hs' : ∀ op, (s, op) ∈ ops → ∃ v, op = .forcePush v ∨ op = .push v :=
      fun op h => hs op (by simp [h])
    by_cases he : s' = s
    · subst he
      obtain ⟨v, hv⟩ := hs op (by simp)
      have hkey : (step b s' op).1.queues s' = some (window r (past ++ [v])).reverse := by
        have hp := implPush_reverse (window r past).reverse b.retention v
          (fun e => inv_keepLast_zero hi s' _ hc e)
        rw [List.reverse_reverse, hb] at hp
        have hp1 : (implPush (window r past).reverse r v).1 =
            (window r (past ++ [v])).reverse := by
          rw [← specPush_window, ← hp, List.reverse_reverse]
        rcases hv with rfl | rfl
        · simp [step, Storage.forcePush, hc, Storage.set, hb, hp1]
        · simp [step, Storage.push, hc, Storage.set, hb, hp1]
      have := ih (step b s' op).1 (past ++ [v]) hret hinv' hkey hs' hreg'
      simp only [run]
      rw [this]
      rcases hv with rfl | rfl <;> simp [pushedTo]
    · have hfr := step_frame b s' s op (fun e => he e.symm)
      have := ih (step b s' op).1 past hret hinv' (by rw [hfr, hc]) hs' hreg'
      simp only [run]
      rw [this]
      cases op <;> simp [pushedTo, he]

theorem step_local (s : S) (b b' : Storage S T) (op : Op T) (hr : b.retention = b'.retention)
    (hq : b.queues s = b'.queues s) :
    (step b s op).1.queues s = (step b' s op).1.queues s ∧
      (step b s op).2 = (step b' s op).2 := by
  cases op <;>
    simp only [step, Storage.forcePush, Storage.push, Storage.pushAsOldest, Storage.pull,
      Storage.pullNewest, Storage.consume, Storage.clearSession, Storage.ensureSession,
      Storage.drainAll, Storage.drain, Storage.iterMut, Storage.oldestMut, Storage.newestMut,
      Storage.newestMutOrElse, Storage.getMut, Storage.iter, Storage.count, Storage.oldest,
      Storage.newest, Storage.get, hq, hr]
  case drain lo hi =>
    cases hq' : b'.queues s with
    | none => simp [hq, hq']
    | some q =>
      by_cases hc : lo ≤ hi ∧ hi ≤ q.length
      · simp [hc, Storage.set]
      · simp [hc, hq, hq']
  all_goals
    rcases hq' : b'.queues s with _ | q
    · simp [hq, hq', Storage.set]
    · rcases q with _ | ⟨a, q⟩
      all_goals (repeat' split)
      all_goals simp_all [Storage.set]

theorem conserve_step (s : S) (b : Storage S T) (op : Op T) (hop : writesInPlace op = false) :
    (b.iter s ++ offered op).Perm
      (handedOver op (step b s op).2 ++
        clearedBy (b.iter s) op ++ (step b s op).1.iter s) := by
  have hpush : ∀ (q : List T) (r : Retention) (v : T),
      (q.reverse ++ [v]).Perm ((implPush q r v).2.toList ++ (implPush q r v).1.reverse) := by
    intro q r v
    have hback : (q.reverse ++ [v]).Perm (v :: q.reverse) := List.perm_append_comm
    cases r with
    | keepAll => simp [implPush]
    | keepFirst n =>
      simp only [implPush]
      split
      · simpa using hback
      · simp
    | keepLast n =>
      simp only [implPush, vecPop]
      split
      · rename_i hc
        have hq : q ≠ [] := by rintro rfl; simp at hc; omega
        have : q = q.dropLast ++ [q.getLast hq] := (List.dropLast_concat_getLast hq).symm
        rw [List.getLast?_eq_some_getLast hq]
        conv => lhs; rw [this]
        simp
      · split
        · simpa using hback
        · simp
  have hpushO : ∀ (q : List T) (r : Retention) (v : T),
      (q.reverse ++ [v]).Perm
        ((implPushOldest q r v).2.toList ++ (implPushOldest q r v).1.reverse) := by
    intro q r v
    have hback : (q.reverse ++ [v]).Perm (v :: q.reverse) := List.perm_append_comm
    cases r with
    | keepAll => simpa [implPushOldest] using hback
    | keepFirst n =>
      simp only [implPushOldest]
      split
      · rename_i hc
        cases q with
        | nil => simp at hc; omega
        | cons a q =>
          simp only [List.tail_cons, List.head?_cons, Option.toList_some, List.reverse_cons,
            List.reverse_append, List.reverse_nil, List.nil_append, List.cons_append]
          have h1 : (q.reverse ++ [a] ++ [v]).Perm ([a, v] ++ q.reverse) := by
            rw [List.append_assoc]; exact List.perm_append_comm
          simpa using h1
      · simpa using hback
    | keepLast n =>
      simp only [implPushOldest]
      split
      · simpa using hback
      · simpa using hback
  cases op <;> simp only [writesInPlace] at hop <;> (try cases hop) <;>
    simp only [step, offered, handedOver, clearedBy]
  case forcePush v =>
    have h := hpush ((b.queues s).getD []) b.retention v
    cases hq : b.queues s <;>
      simpa [Storage.iter, Storage.forcePush, Storage.set, hq] using h
  case push v =>
    cases hq : b.queues s with
    | none => simp [Storage.push, Storage.iter, hq]
    | some q => simpa [Storage.iter, Storage.push, Storage.set, hq] using hpush q b.retention v
  case pushAsOldest v =>
    cases hq : b.queues s with
    | none => simp [Storage.pushAsOldest, Storage.iter, hq]
    | some q =>
      simpa [Storage.iter, Storage.pushAsOldest, Storage.set, hq] using hpushO q b.retention v
  case pull =>
    cases hq : b.queues s with
    | none => simp [Storage.pull, Storage.iter, hq]
    | some q =>
      simp only [Storage.pull, Storage.iter, hq, Storage.set, vecPop, if_true]
      cases hg : q.getLast? with
      | none => have := List.getLast?_eq_none_iff.mp hg; subst this; simp
      | some a =>
        have hne : q ≠ [] := by rintro rfl; cases hg
        have ha : q.getLast hne = a := by
          rw [List.getLast?_eq_some_getLast hne] at hg; exact Option.some.inj hg
        have : q = q.dropLast ++ [a] := by rw [← ha]; exact (List.dropLast_concat_getLast hne).symm
        conv => lhs; rw [this]
        simp
  case pullNewest =>
    cases hq : b.queues s with
    | none => simp [Storage.pullNewest, Storage.iter, hq]
    | some q =>
      cases q with
      | nil => simp [Storage.pullNewest, Storage.iter, hq]
      | cons a q =>
        simpa [Storage.pullNewest, Storage.iter, hq, Storage.set] using
          (List.perm_append_comm : (q.reverse ++ [a]).Perm ([a] ++ q.reverse))
  case consume =>
    cases hq : b.queues s <;> simp [Storage.consume, Storage.iter, hq, Storage.set]
  case clear => simp [Storage.clearSession, Storage.iter, Storage.set]
  case ensure =>
    cases hq : b.queues s <;> simp [Storage.ensureSession, Storage.iter, hq, Storage.set]
  case drainAll =>
    cases hq : b.queues s <;> simp [Storage.drainAll, Storage.iter, hq, Storage.set]
  case drain lo hi =>
    cases hq : b.queues s with
    | none => simp [Storage.drain, Storage.iter, hq]
    | some q =>
      by_cases hc : lo ≤ hi ∧ hi ≤ q.length
      · simp only [Storage.drain, hq, hc, and_self, if_true, Storage.iter, Storage.set,
          List.append_nil]
        rw [← List.reverse_append]
        refine ((List.reverse_perm _).trans ?_).trans (List.reverse_perm _).symm
        have e : q = q.take lo ++ ((q.take hi).drop lo ++ q.drop hi) := by
          have h1 : q.take hi = q.take lo ++ (q.take hi).drop lo := by
            conv => lhs; rw [← List.take_append_drop lo (q.take hi)]
            rw [List.take_take, Nat.min_eq_left hc.1]
          conv => lhs; rw [← List.take_append_drop hi q]
          conv => lhs; rw [h1]
          rw [List.append_assoc]
        conv => lhs; rw [e]
        rw [← List.append_assoc, List.append_assoc]
        rw [List.append_assoc]
        exact List.Perm.append_left _ List.perm_append_comm
      · simp [Storage.drain, Storage.iter, hq, hc]
  all_goals simp

end Verif.Buffer
