import Verif.Editor.EditSpec
/-
Removing nodes removes exactly what is in them.
-/
namespace Verif.Editor

theorem sweep_mono {nodes : List Node} {r : List Uid} {x : Uid} (h : x ∈ r) : x ∈ sweep nodes r := by
  induction nodes generalizing r with
  | nil => exact h
  | cons n nodes ih =>
    simp only [sweep]
    split
    · split
      · exact ih (List.mem_append_left _ h)
      · exact ih h
    · exact ih h

theorem sweep_sound {W : Uid → Prop} {nodes : List Node} {r : List Uid}
    (hW : ∀ n ∈ nodes, ∀ p, n.parent = some p → W p → W n.id) (hr : ∀ x ∈ r, W x) :
    ∀ x ∈ sweep nodes r, W x := by
  induction nodes generalizing r with
  | nil => exact hr
  | cons n nodes ih =>
    have hW' : ∀ n ∈ nodes, ∀ p, n.parent = some p → W p → W n.id :=
      fun m hm => hW m (List.mem_cons_of_mem _ hm)
    simp only [sweep]
    split
    · rename_i p hp
      split
      · rename_i hc
        refine ih hW' ?_
        intro x hx
        rcases List.mem_append.1 hx with hx | hx
        · exact hr x hx
        · rw [List.mem_singleton.1 hx]
          simp only [Bool.and_eq_true, List.contains_eq_mem, decide_eq_true_eq] at hc
          exact hW n (List.mem_cons_self ..) p hp (hr p hc.1)
      · exact ih hW' hr
    · exact ih hW' hr

theorem sweep_length (nodes : List Node) (r : List Uid) : r.length ≤ (sweep nodes r).length := by
  induction nodes generalizing r with
  | nil => exact Nat.le_refl _
  | cons n nodes ih =>
    simp only [sweep]
    split
    · split
      · have := ih (r ++ [n.id])
        simp only [List.length_append, List.length_cons, List.length_nil] at this
        omega
      · exact ih r
    · exact ih r

/-- A pass that adds nothing shows that nothing is to be added. -/
theorem sweep_closed {nodes : List Node} {r : List Uid} (h : (sweep nodes r).length = r.length) :
    ∀ n ∈ nodes, ∀ p, n.parent = some p → p ∈ r → n.id ∈ r := by
  induction nodes generalizing r with
  | nil => intro n hn; cases hn
  | cons m nodes ih =>
    simp only [sweep] at h
    intro n hn p hp hpr
    split at h
    · rename_i q hq
      split at h
      · have := sweep_length nodes (r ++ [m.id])
        simp only [List.length_append, List.length_cons, List.length_nil] at this
        omega
      · rename_i hc
        rcases List.mem_cons.1 hn with rfl | hn
        · rw [hq] at hp
          cases hp
          simpa [hpr] using hc
        · exact ih h n hn p hp hpr
    · rename_i hq
      rcases List.mem_cons.1 hn with rfl | hn
      · rw [hq] at hp; cases hp
      · exact ih h n hn p hp hpr

/-- A pass that adds something adds a node. -/
theorem sweep_new {nodes : List Node} {r : List Uid} (h : (sweep nodes r).length ≠ r.length) :
    ∃ n ∈ nodes, n.id ∉ r ∧ n.id ∈ sweep nodes r := by
  induction nodes generalizing r with
  | nil => exact absurd rfl h
  | cons m nodes ih =>
    simp only [sweep] at h ⊢
    split at h
    · rename_i q hq
      split at h
      · rename_i hc
        rw [if_pos hc]
        simp only [Bool.and_eq_true, Bool.not_eq_true', List.contains_eq_mem, decide_eq_true_eq,
          decide_eq_false_iff_not] at hc
        exact ⟨m, List.mem_cons_self .., hc.2, sweep_mono (by simp)⟩
      · rename_i hc
        rw [if_neg hc]
        obtain ⟨n, h1, h2, h3⟩ := ih h
        exact ⟨n, List.mem_cons_of_mem _ h1, h2, h3⟩
    · obtain ⟨n, h1, h2, h3⟩ := ih h
      exact ⟨n, List.mem_cons_of_mem _ h1, h2, h3⟩

theorem filter_lt {α : Type} {p q : α → Bool} {l : List α} (hle : ∀ x ∈ l, p x = true → q x = true)
    {y : α} (hy : y ∈ l) (hq : q y = true) (hp : p y = false) :
    (l.filter p).length < (l.filter q).length := by
  induction l with
  | nil => cases hy
  | cons x l ih =>
    have hle' : ∀ x ∈ l, p x = true → q x = true := fun z hz => hle z (List.mem_cons_of_mem _ hz)
    have hsub : (l.filter p).length ≤ (l.filter q).length := by
      clear ih hy
      induction l with
      | nil => exact Nat.le_refl _
      | cons z l ih =>
        have := ih (fun w hw => hle w (by
            rcases List.mem_cons.1 hw with rfl | hw
            · exact List.mem_cons_self ..
            · exact List.mem_cons_of_mem _ (List.mem_cons_of_mem _ hw)))
          (fun w hw => hle' w (List.mem_cons_of_mem _ hw))
        simp only [List.filter_cons]
        cases hpz : p z
        · cases q z <;> simp only [Bool.false_eq_true, if_false, if_true, List.length_cons] <;> omega
        · rw [hle' z (List.mem_cons_self ..) hpz]
          simp only [if_true, List.length_cons]
          omega
    simp only [List.filter_cons]
    rcases List.mem_cons.1 hy with rfl | hy
    · rw [hq, hp]
      simp only [if_true, Bool.false_eq_true, if_false, List.length_cons]
      omega
    · have := ih hle' hy
      cases hpx : p x
      · cases q x <;> simp only [Bool.false_eq_true, if_false, if_true, List.length_cons] <;> omega
      · rw [hle x (List.mem_cons_self ..) hpx]
        simp only [if_true, List.length_cons]
        omega

/-- The nodes that are not found yet. -/
def left (nodes : List Node) (r : List Uid) : Nat := (nodes.filter fun n => !r.contains n.id).length

theorem sweepAll_mono {fuel : Nat} {nodes : List Node} {r : List Uid} {x : Uid} (h : x ∈ r) :
    x ∈ sweepAll fuel nodes r := by
  induction fuel generalizing r with
  | zero => exact h
  | succ fuel ih =>
    simp only [sweepAll]
    split
    · exact h
    · exact ih (sweep_mono h)

theorem sweepAll_sound {W : Uid → Prop} {fuel : Nat} {nodes : List Node} {r : List Uid}
    (hW : ∀ n ∈ nodes, ∀ p, n.parent = some p → W p → W n.id) (hr : ∀ x ∈ r, W x) :
    ∀ x ∈ sweepAll fuel nodes r, W x := by
  induction fuel generalizing r with
  | zero => exact hr
  | succ fuel ih =>
    simp only [sweepAll]
    split
    · exact hr
    · exact ih (sweep_sound hW hr)

/-- There are enough passes. -/
theorem sweepAll_closed {fuel : Nat} {nodes : List Node} {r : List Uid} (hf : left nodes r < fuel) :
    ∀ n ∈ nodes, ∀ p, n.parent = some p → p ∈ sweepAll fuel nodes r →
      n.id ∈ sweepAll fuel nodes r := by
  induction fuel generalizing r with
  | zero => omega
  | succ fuel ih =>
    simp only [sweepAll]
    split
    · rename_i h; exact sweep_closed h
    · rename_i h
      obtain ⟨n, h1, h2, h3⟩ := sweep_new h
      refine ih ?_
      have : left nodes (sweep nodes r) < left nodes r := by
        refine filter_lt ?_ h1 (by simpa using h2) (by simpa using h3)
        intro m _ hm
        simp only [Bool.not_eq_true', List.contains_eq_mem, decide_eq_false_iff_not] at hm ⊢
        exact fun hx => hm (sweep_mono hx)
      omega

/-- What is removed. -/
theorem removed_iff (b : Board) (ids : List Uid) (x : Uid) :
    x ∈ sweepAll (b.nodes.length + 1) b.nodes ids ↔ Within b ids x := by
  constructor
  · exact sweepAll_sound (W := Within b ids) (fun n hn p hp h => .inside hn hp h)
      (fun x hx => .self hx) x
  · intro h
    induction h with
    | self h => exact sweepAll_mono h
    | inside hn hp _ ih =>
      refine sweepAll_closed ?_ _ hn _ hp ih
      have : left b.nodes ids ≤ b.nodes.length := List.length_filter_le ..
      omega

end Verif.Editor
