import Verif.Continuous.Spec
import Verif.Delivery.Runs
import Verif.Delivery.Exact

namespace Verif.Continuous

open Verif.Delivery

set_option linter.unusedSimpArgs false
set_option linter.unusedVariables false

@[simp] theorem responded_append (l l' : List Rec) :
    responded (l ++ l') = responded l ++ responded l' := by simp [responded]

/-! ### The responses of one run of a system -/

theorem respondAll_eq (orders : List Order) (attempts : List (Nat × Nat)) :
    ∀ (delivered : List Resp) (used : List Nat), (∀ i, i ∈ used ↔ ∃ d ∈ delivered, d.index = i) →
    ∃ new, respondAll orders delivered attempts = delivered ++ new ∧
      new.map (fun r => (r.index, r.data)) = answers orders.length used attempts ∧
      ∀ r ∈ new, orders[r.index]? = some r.order := by
  induction attempts with
  | nil => intro delivered used _; exact ⟨[], by simp [respondAll], rfl, by simp⟩
  | cons a rest ih =>
    obtain ⟨i, data⟩ := a
    intro delivered used hu
    have hany : (delivered.any fun d => d.index == i) = decide (i ∈ used) := by
      rw [Bool.eq_iff_iff, List.any_eq_true, decide_eq_true_iff, hu]
      simp
    simp only [respondAll, answers]
    cases ho : orders[i]? with
    | none =>
      have : ¬ i < orders.length := by
        rw [List.getElem?_eq_none_iff] at ho
        omega
      simp only [this, false_and, if_false]
      exact ih delivered used hu
    | some o =>
      have hlt : i < orders.length := (List.getElem?_eq_some_iff.mp ho).1
      simp only [hany, hlt, true_and, decide_eq_true_eq]
      by_cases hm : i ∈ used
      · simp only [hm, if_true, not_true, if_false]
        exact ih delivered used hu
      · simp only [hm, if_false, not_false_iff, if_true]
        obtain ⟨new, h1, h2, h3⟩ := ih (delivered ++ [{ index := i, order := o, data }]) (i :: used)
          (by
            intro j
            simp only [List.mem_cons, List.mem_append, List.mem_singleton, List.not_mem_nil,
              or_false, hu]
            constructor
            · rintro (rfl | ⟨d, hd, he⟩)
              · exact ⟨_, .inr rfl, rfl⟩
              · exact ⟨d, .inl hd, he⟩
            · rintro ⟨d, hd | rfl, he⟩
              · exact .inr ⟨d, hd, he⟩
              · exact .inl he.symm)
        refine ⟨{ index := i, order := o, data } :: new, by rw [h1]; simp, by simp [h2], ?_⟩
        intro r hr
        rcases List.mem_cons.mp hr with rfl | hr
        · exact ho
        · exact h3 r hr

theorem answers_fresh (n : Nat) (attempts : List (Nat × Nat)) : ∀ (used : List Nat),
    ∀ a ∈ answers n used attempts, a.1 < n ∧ a.1 ∉ used := by
  induction attempts with
  | nil => intro used a h; cases h
  | cons b rest ih =>
    obtain ⟨i, data⟩ := b
    intro used a h
    simp only [answers] at h
    split at h
    · rename_i hi
      rcases List.mem_cons.mp h with rfl | h
      · exact hi
      · have := ih _ a h
        exact ⟨this.1, fun hm => this.2 (List.mem_cons_of_mem _ hm)⟩
    · exact ih _ a h

theorem answers_nodup (n : Nat) (attempts : List (Nat × Nat)) : ∀ (used : List Nat),
    ((answers n used attempts).map (·.1)).Nodup := by
  induction attempts with
  | nil => intro used; exact List.nodup_nil
  | cons b rest ih =>
    obtain ⟨i, data⟩ := b
    intro used
    simp only [answers]
    split
    · rw [List.map_cons, List.nodup_cons]
      refine ⟨?_, ih _⟩
      intro hm
      obtain ⟨a, ha, he⟩ := List.mem_map.mp hm
      have := (answers_fresh n rest (i :: used) a ha).2
      exact this (by rw [he]; exact List.mem_cons_self ..)
    · exact ih _

/-! ### Sorting -/

theorem mem_insertDesc (i j : Nat) (l : List Nat) : j ∈ insertDesc i l ↔ j = i ∨ j ∈ l := by
  induction l with
  | nil => simp [insertDesc]
  | cons a l ih =>
    simp only [insertDesc]
    split
    · simp only [List.mem_cons, ih]
      constructor
      · rintro (h | h | h)
        · exact .inr (.inl h)
        · exact .inl h
        · exact .inr (.inr h)
      · rintro (h | h | h)
        · exact .inr (.inl h)
        · exact .inl h
        · exact .inr (.inr h)
    · simp

theorem count_insertDesc (i j : Nat) (l : List Nat) :
    (insertDesc i l).count j = (i :: l).count j := by
  induction l with
  | nil => rfl
  | cons a l ih =>
    simp only [insertDesc]
    split
    · rw [List.count_cons, ih]
      simp only [List.count_cons]
      omega
    · rfl

theorem perm_insertDesc (i : Nat) (l : List Nat) : (insertDesc i l).Perm (i :: l) :=
  List.perm_iff_count.mpr (count_insertDesc i · l)

theorem perm_sortDesc (l : List Nat) : (sortDesc l).Perm l := by
  induction l with
  | nil => exact List.Perm.refl _
  | cons a l ih => exact (perm_insertDesc a _).trans (ih.cons a)

theorem mem_sortDesc (j : Nat) (l : List Nat) : j ∈ sortDesc l ↔ j ∈ l := (perm_sortDesc l).mem_iff

theorem insertDesc_sorted (i : Nat) (l : List Nat) (h : l.Pairwise (· > ·)) (hi : i ∉ l) :
    (insertDesc i l).Pairwise (· > ·) := by
  induction l with
  | nil => simp [insertDesc]
  | cons a l ih =>
    rw [List.pairwise_cons] at h
    simp only [insertDesc]
    split
    · rename_i hlt
      rw [List.pairwise_cons]
      refine ⟨?_, ih h.2 (fun hm => hi (List.mem_cons_of_mem _ hm))⟩
      intro b hb
      rcases (mem_insertDesc i b l).mp hb with rfl | hb
      · exact hlt
      · exact h.1 b hb
    · rename_i hlt
      have hne : i ≠ a := fun he => hi (by rw [he]; exact List.mem_cons_self ..)
      rw [List.pairwise_cons]
      refine ⟨?_, List.pairwise_cons.mpr h⟩
      intro b hb
      rcases List.mem_cons.mp hb with rfl | hb
      · show i > b
        omega
      · have := h.1 b hb
        show i > b
        have h2 : a > b := this
        omega

theorem sortDesc_sorted (l : List Nat) (h : l.Nodup) : (sortDesc l).Pairwise (· > ·) := by
  induction l with
  | nil => exact .nil
  | cons a l ih =>
    rw [List.nodup_cons] at h
    exact insertDesc_sorted a _ (ih h.2) (fun hm => h.1 ((mem_sortDesc a l).mp hm))

/-! ### Taking positions out of a list -/

theorem without_congr {α : Type} (l : List α) : ∀ (p q : Nat → Bool), (∀ i, i < l.length → p i = q i) →
    without l p = without l q := by
  induction l with
  | nil => intro p q _; rfl
  | cons a l ih =>
    intro p q h
    have h0 := h 0 (by simp)
    have := ih (fun i => p (i + 1)) (fun i => q (i + 1)) (fun i hi => h (i + 1) (by simp; omega))
    simp only [without, h0, this]

theorem without_false {α : Type} (l : List α) (p : Nat → Bool) (h : ∀ i, p i = false) :
    without l p = l := by
  induction l generalizing p with
  | nil => rfl
  | cons a l ih => simp [without, h 0, ih _ (fun i => h (i + 1))]

theorem without_eraseIdx {α : Type} (l : List α) : ∀ (i : Nat) (p : Nat → Bool),
    (∀ j, i ≤ j → p j = false) →
    without (l.eraseIdx i) p = without l (fun j => j == i || p j) := by
  induction l with
  | nil => intro i p _; rfl
  | cons a l ih =>
    intro i p h
    cases i with
    | zero =>
      have : ∀ j, p j = false := fun j => h j (by omega)
      simp only [List.eraseIdx_cons_zero, without, beq_self_eq_true, Bool.true_or, if_true]
      rw [without_false l p this, without_false l]
      intro j
      simp [this]
    | succ i =>
      have := ih i (fun j => p (j + 1)) (fun j hj => h (j + 1) (by omega))
      simp only [List.eraseIdx_cons_succ, without, this]
      have h0 : ((0 : Nat) == i + 1) = false := by simp
      simp only [h0, Bool.false_or]
      have : (fun j => j == i || p (j + 1)) = (fun j => j + 1 == i + 1 || p (j + 1)) := by
        funext j
        congr 1
        rw [Bool.eq_iff_iff]
        simp
      rw [this]

theorem foldl_eraseIdx {α : Type} (L : List Nat) : ∀ (l : List α), L.Pairwise (· > ·) →
    L.foldl (fun l i => l.eraseIdx i) l = without l (fun j => decide (j ∈ L)) := by
  induction L with
  | nil => intro l _; simp [without_false]
  | cons i L ih =>
    intro l h
    rw [List.pairwise_cons] at h
    rw [List.foldl_cons, ih _ h.2, without_eraseIdx]
    · congr 1
      funext j
      rw [Bool.eq_iff_iff]
      simp
    · intro j hj
      simp only [decide_eq_false_iff_not]
      intro hm
      have := h.1 j hm
      have h2 : i > j := this
      omega

theorem foldl_eraseIdx_append {α : Type} (L : List Nat) : ∀ (l m : List α), L.Pairwise (· > ·) →
    (∀ i ∈ L, i < l.length) →
    L.foldl (fun l i => l.eraseIdx i) (l ++ m) = L.foldl (fun l i => l.eraseIdx i) l ++ m := by
  induction L with
  | nil => intro l m _ _; rfl
  | cons i L ih =>
    intro l m h hl
    rw [List.pairwise_cons] at h
    have hi := hl i (List.mem_cons_self ..)
    rw [List.foldl_cons, List.foldl_cons, List.eraseIdx_append_of_lt_length hi]
    refine ih _ m h.2 ?_
    intro j hj
    have : i > j := h.1 j hj
    rw [List.length_eraseIdx]
    have := hl j (List.mem_cons_of_mem _ hj)
    split <;> omega

/-! ### Retiring -/

theorem active_nodup {v : Svc} (h : Inv none v) : (active v).Nodup := by
  rw [List.nodup_iff_count]
  intro o
  have := h.count_le o
  omega

theorem eraseIdx_eq_filter {v : Svc} (h : Inv none v) {i : Nat} {t : Task}
    (ht : v.tasks[i]? = some t) :
    v.tasks.eraseIdx i = v.tasks.filter (fun u => u.order.id != t.order.id) := by
  have hpw : v.tasks.Pairwise (fun a b => a.order.id ≠ b.order.id) := by
    have h1 := active_nodup h
    rw [active, List.nodup_iff_pairwise_ne, List.pairwise_map] at h1
    refine List.Pairwise.imp_of_mem (fun {a b} ha hb hne hid => ?_) h1
    exact hne (h.task_of_id ha hb hid)
  revert ht hpw
  generalize v.tasks = l
  intro ht hpw
  induction l generalizing i with
  | nil => cases ht
  | cons a l ih =>
    rw [List.pairwise_cons] at hpw
    cases i with
    | zero =>
      simp only [List.getElem?_cons_zero, Option.some.injEq] at ht
      subst ht
      simp only [List.eraseIdx_cons_zero, List.filter_cons, bne_self_eq_false, Bool.false_eq_true,
        if_false]
      symm
      rw [List.filter_eq_self]
      intro b hb
      simp only [bne_iff_ne, ne_eq]
      exact fun he => hpw.1 b hb he.symm
    | succ i =>
      simp only [List.getElem?_cons_succ] at ht
      have hm := List.mem_of_getElem? ht
      have hne := hpw.1 t hm
      simp only [List.eraseIdx_cons_succ, List.filter_cons]
      rw [if_pos (by simpa using hne), ih ht hpw.2]

theorem eraseIdx_map' {α β : Type} (f : α → β) (l : List α) : ∀ (i : Nat),
    (l.map f).eraseIdx i = (l.eraseIdx i).map f := by
  induction l with
  | nil => intro i; rfl
  | cons a l ih =>
    intro i
    cases i with
    | zero => rfl
    | succ i => simp [ih]

theorem retire_eq {v : Svc} (h : Inv none v) (hk : v.kind = .continuous) {i : Nat} {t : Task}
    (ht : v.tasks[i]? = some t) : retire v i = v.release t (.responded t.order) := by
  simp only [retire, ht, Svc.release, eraseIdx_eq_filter h ht]
  cases t.blocker with
  | none => rfl
  | some label =>
    dsimp only
    split
    · rename_i hk'
      rw [hk] at hk'
      cases hk'
    · rfl
    · rfl

theorem serveNext_tasks (label : Option Nat) : ∀ (fuel : Nat) (v v' : Svc),
    v.serveNext label fuel = some v' → ∃ new, v'.tasks = v.tasks ++ new ∧
      started v'.log = started v.log ++ new.map (·.order) ∧ new.length ≤ 1 ∧
      responded v'.log = responded v.log ∧ v'.severed = v.severed ∧ v'.kind = v.kind := by
  intro fuel
  induction fuel with
  | zero => intro v v' h; cases h
  | succ fuel ih =>
    intro v v' h
    simp only [Svc.serveNext] at h
    split at h
    · cases h
    · cases h
      exact ⟨[], by simp, by simp, by simp, rfl, rfl, rfl⟩
    · split at h
      · obtain ⟨new, h1, h2, h3, h4, h5, h6⟩ := ih _ _ h
        refine ⟨new, h1, ?_, h3, ?_, h5, h6⟩
        · rw [h2]; simp
        · rw [h4]; simp [responded]
      · cases h
        exact ⟨[⟨_, _, .running⟩], rfl, by simp [Svc.start], by simp,
          by simp [Svc.start, responded], rfl, rfl⟩

theorem retire_spec {v : Svc} (h : Inv none v) (hk : v.kind = .continuous) {i : Nat}
    (hi : i < v.tasks.length) :
    ∃ v' new, retire v i = some v' ∧ Inv none v' ∧ v'.kind = .continuous ∧
      v'.severed = v.severed ∧ v'.delivery.parallel = v.delivery.parallel ∧
      active v' = (active v).eraseIdx i ++ new ∧ started v'.log = started v.log ++ new ∧
      ∃ o, (active v)[i]? = some o ∧ responded v'.log = responded v.log ++ [o] := by
  have ht : v.tasks[i]? = some v.tasks[i] := List.getElem?_eq_getElem hi
  obtain ⟨v', h1, h2, h3⟩ := release_inv h (List.getElem_mem hi) (.responded v.tasks[i].order)
    (.inl rfl)
  rw [← retire_eq h hk ht] at h1
  have hact : (active v)[i]? = some v.tasks[i].order := by simp [active, ht]
  have her : (v.tasks.eraseIdx i).map (·.order) = (active v).eraseIdx i := by
    rw [active, eraseIdx_map']
  have h1' := h1
  simp only [retire, ht] at h1'
  split at h1'
  · cases h1'
    refine ⟨_, [], h1, h2, hk, rfl, h3, ?_, ?_, _, hact, ?_⟩
    · rw [List.append_nil]
      exact her
    · simp
    · simp [responded]
  · obtain ⟨new, t1, t2, _, t4, t5, t6⟩ := serveNext_tasks _ _ _ _ h1'
    refine ⟨v', new.map (·.order), h1, h2, by rw [t6]; exact hk, t5, h3, ?_, ?_, _, hact, ?_⟩
    · rw [active, t1, List.map_append, her]
    · rw [t2]; simp
    · rw [t4]; simp [responded]

theorem retireAll_spec (L : List Nat) : ∀ {v : Svc}, Inv none v → v.kind = .continuous →
    L.Pairwise (· > ·) → (∀ i ∈ L, i < v.tasks.length) →
    ∃ v' new, retireAll v L = some v' ∧ Inv none v' ∧ v'.kind = .continuous ∧
      v'.severed = v.severed ∧ v'.delivery.parallel = v.delivery.parallel ∧
      active v' = L.foldl (fun l i => l.eraseIdx i) (active v) ++ new ∧
      started v'.log = started v.log ++ new ∧
      ∃ os, os.map some = L.map (fun i => (active v)[i]?) ∧
        responded v'.log = responded v.log ++ os := by
  induction L with
  | nil =>
    intro v h hk _ _
    exact ⟨v, [], rfl, h, hk, rfl, rfl, by simp, by simp, [], rfl, by simp⟩
  | cons i L ih =>
    intro v h hk hp hl
    rw [List.pairwise_cons] at hp
    have hi := hl i (List.mem_cons_self ..)
    obtain ⟨v1, new1, h1, h2, h3, h4, h5, h6, h7, o, h8, h9⟩ := retire_spec h hk hi
    have hlen : (active v).length = v.tasks.length := by simp [active]
    have hL : ∀ j ∈ L, j < i := fun j hj => hp.1 j hj
    have hj : ∀ j ∈ L, (active v1)[j]? = (active v)[j]? := by
      intro j hj
      have h10 := hL j hj
      rw [h6, List.getElem?_append_left, List.getElem?_eraseIdx_of_lt h10]
      rw [List.length_eraseIdx]
      split <;> omega
    have hl1 : ∀ j ∈ L, j < v1.tasks.length := by
      intro j hj'
      have h10 := hl j (List.mem_cons_of_mem _ hj')
      have h11 := hj j hj'
      have h12 : (active v)[j]? ≠ none := by
        rw [ne_eq, List.getElem?_eq_none_iff]
        omega
      rw [← h11, ne_eq, List.getElem?_eq_none_iff] at h12
      simp only [active, List.length_map] at h12
      omega
    obtain ⟨v', new, k1, k2, k3, k4, k5, k6, k7, os, k8, k9⟩ := ih h2 h3 hp.2 hl1
    refine ⟨v', new1 ++ new, by simp [retireAll, h1, k1], k2, k3, k4.trans h4, k5.trans h5, ?_, ?_,
      o :: os, ?_, ?_⟩
    · rw [k6, h6, List.foldl_cons, foldl_eraseIdx_append L _ _ hp.2, List.append_assoc]
      intro j hj'
      have := hL j hj'
      rw [List.length_eraseIdx]
      split <;> omega
    · rw [k7, h7, List.append_assoc]
    · rw [List.map_cons, List.map_cons, h8, k8]
      congr 1
      exact List.map_congr_left hj
    · rw [k9, h9]
      simp

end Verif.Continuous
