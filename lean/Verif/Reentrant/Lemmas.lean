import Verif.Reentrant.Spec

namespace Verif.Reentrant

variable {R : Type}

mutual
def Tree.size : Tree R → Nat
  | .node _ kids => 1 + Tree.sizeList kids
def Tree.sizeList : List (Tree R) → Nat
  | [] => 0
  | t :: ts => t.size + 1 + Tree.sizeList ts
end

/-! ### Callbacks -/

theorem executeAll_busy : ∀ (ts : List (Tree Nat)) (fuel : Nat) (s : Cb), ts.length + 1 < fuel →
    s.locked = false → s.available = false →
    executeAll fuel s ts = .ok { s with queue := s.queue ++ ts } := by
  intro ts
  induction ts with
  | nil =>
    intro fuel s hf _ _
    match fuel, hf with
    | fuel + 1, _ => simp [executeAll]
  | cons t ts ih =>
    intro fuel s hf hl ha
    simp only [List.length_cons] at hf
    match fuel, hf with
    | fuel + 2, hf =>
      simp only [executeAll, execute, hl, ha, Bool.false_eq_true, if_false]
      rw [ih (fuel + 1) _ (by omega) rfl rfl]
      simp

theorem emptyQueue_leaves : ∀ (ts : List (Tree Nat)) (fuel : Nat) (s : Cb), ts.length + 2 < fuel →
    s.locked = false → s.queue = ts → (∀ t ∈ ts, t.kids = []) →
    emptyQueue fuel s = .ok { s with
      queue := [], available := true, log := s.log ++ ts.map Tree.root } := by
  intro ts
  induction ts with
  | nil =>
    intro fuel s hf hl hq _
    match fuel, hf with
    | fuel + 1, _ =>
      simp only [emptyQueue, hl, Bool.false_eq_true, if_false, hq, List.map_nil, List.append_nil]
  | cons t ts ih =>
    intro fuel s hf hl hq hk
    simp only [List.length_cons] at hf
    match fuel, hf with
    | fuel + 3, hf =>
      have hkt := hk t (List.mem_cons_self ..)
      obtain ⟨r, kids⟩ := t
      simp only [Tree.kids] at hkt
      subst hkt
      rw [emptyQueue]
      simp only [hl, Bool.false_eq_true, if_false, hq, call, executeAll]
      rw [ih (fuel + 2) _ (by omega) rfl rfl (fun t ht => hk t (List.mem_cons_of_mem _ ht))]
      simp only [List.map_cons, Tree.root, List.append_assoc, List.singleton_append, ← hl]

/-- A queued request that causes a request of the same callback locks the mutex twice. -/
theorem emptyQueue_deadlock : ∀ (ts : List (Tree Nat)) (fuel : Nat) (s : Cb), ts.length + 3 < fuel →
    s.locked = false → s.queue = ts → (∃ t ∈ ts, t.kids ≠ []) →
    emptyQueue fuel s = .error .deadlock := by
  intro ts
  induction ts with
  | nil => rintro _ _ _ _ _ ⟨t, ht, _⟩; cases ht
  | cons t ts ih =>
    intro fuel s hf hl hq hk
    simp only [List.length_cons] at hf
    match fuel, hf with
    | fuel + 4, hf =>
      obtain ⟨r, kids⟩ := t
      rw [emptyQueue]
      simp only [hl, Bool.false_eq_true, if_false, hq, call]
      cases kids with
      | nil =>
        simp only [executeAll]
        refine ih (fuel + 3) _ (by omega) rfl rfl ?_
        obtain ⟨t, ht, hne⟩ := hk
        rcases List.mem_cons.mp ht with rfl | ht
        · exact absurd rfl hne
        · exact ⟨t, ht, hne⟩
      | cons k ks => simp only [executeAll, execute, if_true]

/-! ### Services -/

theorem triggerAll_busy : ∀ (ts : List (Tree Req)) (fuel : Nat) (s : Disp), ts.length + 1 < fuel →
    s.delivering = true →
    triggerAll fuel s ts = .ok { s with
      queue := s.queue ++ ts, inputs := s.inputs ++ ts.map Tree.root } := by
  intro ts
  induction ts with
  | nil =>
    intro fuel s hf _
    match fuel, hf with
    | fuel + 1, _ => simp [triggerAll]
  | cons t ts ih =>
    intro fuel s hf hd
    simp only [List.length_cons] at hf
    obtain ⟨r, kids⟩ := t
    match fuel, hf with
    | fuel + 2, hf =>
      simp only [triggerAll, dispatch, hd, if_true]
      rw [ih (fuel + 1) _ (by omega) rfl]
      simp [Tree.root]

theorem Tree.length_le_sizeList (ts : List (Tree R)) : ts.length ≤ Tree.sizeList ts := by
  induction ts with
  | nil => exact Nat.le_refl _
  | cons t ts ih => simp only [List.length_cons, Tree.sizeList]; omega

theorem Tree.sizeList_append (a b : List (Tree R)) :
    Tree.sizeList (a ++ b) = Tree.sizeList a + Tree.sizeList b := by
  induction a with
  | nil => simp [Tree.sizeList]
  | cons t a ih => simp only [List.cons_append, Tree.sizeList, ih]; omega

theorem Tree.revList_append (a b : List (Tree R)) :
    Tree.revList (a ++ b) = Tree.revList b ++ Tree.revList a := by
  induction a with
  | nil => simp [Tree.revList]
  | cons t a ih => simp [Tree.revList, ih]

theorem Tree.allList_append (a b : List (Tree R)) :
    Tree.allList (a ++ b) = Tree.allList a ++ Tree.allList b := by
  induction a with
  | nil => simp [Tree.allList]
  | cons t a ih => simp [Tree.allList, ih]

mutual
theorem Tree.rev_perm : ∀ (t : Tree R), t.rev.Perm t.all
  | .node r kids => by
    simp only [Tree.rev, Tree.all]
    exact (Tree.revList_perm kids).cons r
theorem Tree.revList_perm : ∀ (ts : List (Tree R)), (Tree.revList ts).Perm (Tree.allList ts)
  | [] => List.Perm.refl _
  | t :: ts => by
    simp only [Tree.revList, Tree.allList]
    exact List.perm_append_comm.trans ((Tree.rev_perm t).append (Tree.revList_perm ts))
end

/-- What the loop does when all services are there. `inputs` holds the inputs of the queued
requests, among others. -/
theorem deliverAll_spec (provider : Nat) : ∀ (fuel : Nat) (s : Disp) (others : List Req),
    Tree.sizeList s.queue + 3 < fuel → s.delivering = true → s.taken = [] →
    s.inputs.Perm (others ++ s.queue.map Tree.root) →
    (∀ r ∈ Tree.allList s.queue, r.provider ∉ s.missing) →
    ∃ inputs, deliverAll fuel s provider = .ok { s with
        delivering := false, queue := [], inputs := inputs
        log := s.log ++ (Tree.revList s.queue).map .served } ∧
      inputs.Perm others := by
  intro fuel
  induction fuel with
  | zero => intro _ _ h; omega
  | succ fuel ih =>
    intro s others hf hd ht hp hm
    cases hq : s.queue.getLast? with
    | none =>
      have hq' : s.queue = [] := List.getLast?_eq_none_iff.mp hq
      refine ⟨s.inputs, ?_, by simpa [hq'] using hp⟩
      simp only [deliverAll, hq', List.getLast?_nil, Tree.revList, List.map_nil, List.append_nil]
    | some t =>
      obtain ⟨l, hl⟩ := List.getLast?_eq_some_iff.mp hq
      obtain ⟨r, kids⟩ := t
      have hdl : s.queue.dropLast = l := by rw [hl]; simp
      have hrm : r.provider ∉ s.missing := by
        refine hm r ?_
        rw [hl, Tree.allList_append]
        simp [Tree.allList, Tree.all]
      have hin : r ∈ s.inputs := by
        rw [hp.mem_iff, hl]
        simp [Tree.root]
      rw [hl, Tree.sizeList_append] at hf
      simp only [Tree.sizeList, Tree.size] at hf
      have hlen := Tree.length_le_sizeList kids
      match fuel, ih, hf with
      | fuel + 1, ih, hf =>
        rw [deliverAll]
        simp only [hq, hdl, hrm, if_false, serve, hin, if_true, ht, List.not_mem_nil]
        rw [triggerAll_busy kids fuel { s with
          queue := l, inputs := s.inputs.erase r, taken := [r.provider],
          log := s.log ++ [Rec.served r] } (by omega) hd]
        simp only [List.erase_cons_head]
        have hpe : (s.inputs.erase r ++ kids.map Tree.root).Perm
            (others ++ (l ++ kids).map Tree.root) := by
          rw [List.map_append, ← List.append_assoc]
          refine List.Perm.append_right _ ?_
          have h1 := hp.erase r
          rw [hl, List.map_append, ← List.append_assoc] at h1
          refine h1.trans ?_
          simp only [List.map_cons, List.map_nil, Tree.root]
          refine (List.Perm.erase r (List.perm_append_comm (l₂ := [r]))).trans ?_
          simp
        obtain ⟨inputs, h1, h2⟩ := ih
          { s with
            queue := l ++ kids
            inputs := s.inputs.erase r ++ kids.map Tree.root
            taken := []
            log := s.log ++ [.served r] } others
          (by simp only [Tree.sizeList_append]; omega) hd rfl hpe
          (by
            intro x hx
            refine hm x ?_
            rw [hl, Tree.allList_append]
            rw [Tree.allList_append] at hx
            simp only [Tree.allList, Tree.all, List.append_nil, List.mem_append, List.mem_cons]
            rcases List.mem_append.mp hx with hx | hx
            · exact .inl hx
            · exact .inr (.inr hx))
        refine ⟨inputs, ?_, h2⟩
        rw [h1]
        simp only [Tree.revList_append, hl, Tree.revList, Tree.rev, List.nil_append, ht,
          List.map_append, List.map_cons, List.append_assoc, List.singleton_append,
          List.cons_append]

end Verif.Reentrant
