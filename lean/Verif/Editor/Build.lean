import Verif.Editor.Restore
/-
The nodes of a graph, sorted by depth, are put back into a forest with the same operations.
-/
namespace Verif.Editor

theorem find_set (f : Forest) (n : Name) (o : Op) (k : Forest) (m : Name) :
    (f.set n o k).find m = if m = n then some (o, k) else f.find m := by
  induction f with
  | nil =>
    simp only [Forest.set, Forest.find]
    by_cases h : m = n
    · subst h; simp
    · rw [if_neg h, if_neg (Ne.symm h)]
  | cons n' o' kids rest _ ih =>
    simp only [Forest.set]
    by_cases h : n' = n
    · subst h
      simp only [if_true, Forest.find]
      by_cases h : m = n'
      · subst h; simp
      · rw [if_neg h, if_neg (Ne.symm h), if_neg (Ne.symm h)]
    · simp only [if_neg h, Forest.find, ih]
      by_cases h' : n' = m
      · subst h'
        rw [if_pos rfl, if_neg h, if_pos rfl]
      · rw [if_neg h', if_neg h']

/-- An operation can be put where its scopes are, and nothing else changes. -/
theorem insert_ok {ns : List Name} {n : Name} {o : Op} {f : Forest}
    (hs : ∀ r s rest, ns = r ++ s :: rest → ∃ so, opAt f r s = some so ∧ so.body.kind = .scope)
    (hd : ∀ r m, opAt f (ns ++ n :: r) m = none) :
    ∃ f', f.insert ns n o = some f' ∧
      ∀ q m, opAt f' q m = if q = ns ∧ m = n then some o else opAt f q m := by
  induction ns generalizing f with
  | nil =>
    refine ⟨_, rfl, ?_⟩
    intro q m
    cases q with
    | nil =>
      simp only [opAt_nil_eq, find_set, true_and]
      by_cases h : m = n
      · rw [if_pos h, if_pos h]; rfl
      · rw [if_neg h, if_neg h]
    | cons s q =>
      have h0 : ¬ (s :: q = [] ∧ m = n) := fun h => List.cons_ne_nil _ _ h.1
      rw [if_neg h0, opAt_cons_eq, find_set]
      by_cases h : s = n
      · subst h
        rw [if_pos rfl]
        have := hd q m
        rw [List.nil_append] at this
        rw [this]
        rfl
      · rw [if_neg h, opAt_cons_eq]
  | cons s ns ih =>
    obtain ⟨so, h1, h2⟩ := hs [] s ns rfl
    rw [opAt_nil_eq] at h1
    cases hf : f.find s with
    | none => rw [hf] at h1; cases h1
    | some p =>
      obtain ⟨so', kids⟩ := p
      rw [hf] at h1
      have h1' : so' = so := by simpa using h1
      subst h1'
      have hs' : ∀ r t rest, ns = r ++ t :: rest →
          ∃ so, opAt kids r t = some so ∧ so.body.kind = .scope := by
        intro r t rest hr
        have := hs (s :: r) t rest (by rw [hr]; rfl)
        rw [opAt_cons_eq, hf] at this
        exact this
      have hd' : ∀ r m, opAt kids (ns ++ n :: r) m = none := by
        intro r m
        have := hd r m
        rw [List.cons_append, opAt_cons_eq, hf] at this
        exact this
      obtain ⟨f', h3, h4⟩ := ih hs' hd'
      · refine ⟨f.set s so' f', ?_, ?_⟩
        · simp only [Forest.insert, hf, h2, if_true, h3, Option.map_some]
        · intro q m
          cases q with
          | nil =>
            have h0 : ¬ ([] = s :: ns ∧ m = n) := fun h => List.cons_ne_nil _ _ h.1.symm
            rw [if_neg h0, opAt_nil_eq, find_set, opAt_nil_eq]
            by_cases h : m = s
            · subst h
              rw [if_pos rfl, hf]
              rfl
            · rw [if_neg h]
          | cons s' q =>
            rw [opAt_cons_eq, find_set, opAt_cons_eq]
            by_cases h : s' = s
            · subst h
              rw [if_pos rfl, hf]
              simp only [Option.bind_some, h4, List.cons.injEq, true_and]
            · rw [if_neg h, if_neg (fun h' => h (List.cons.inj h'.1).1)]

theorem insertByDepth_perm (x : Key × Op) (l : Nodes) : (insertByDepth x l).Perm (x :: l) := by
  induction l with
  | nil => exact .refl _
  | cons y l ih =>
    simp only [insertByDepth]
    split
    · exact .refl _
    · exact (ih.cons y).trans (.swap x y l)

theorem sortByDepth_perm (l : Nodes) : (sortByDepth l).Perm l := by
  induction l with
  | nil => exact .refl _
  | cons x l ih => exact (insertByDepth_perm x _).trans (ih.cons x)

/-- Sorted by the length of the namespaces. -/
abbrev Sorted (l : Nodes) : Prop := l.Pairwise fun a b => a.1.ns.length ≤ b.1.ns.length

theorem insertByDepth_sorted (x : Key × Op) {l : Nodes} (h : Sorted l) :
    Sorted (insertByDepth x l) := by
  induction l with
  | nil => exact .cons (List.forall_mem_nil _) .nil
  | cons y l ih =>
    simp only [insertByDepth]
    rw [Sorted, List.pairwise_cons] at h
    by_cases hxy : x.1.ns.length ≤ y.1.ns.length
    · rw [if_pos hxy]
      refine .cons ?_ (.cons h.1 h.2)
      intro z hz
      rcases List.mem_cons.1 hz with rfl | hz
      · exact hxy
      · exact Nat.le_trans hxy (h.1 z hz)
    · rw [if_neg hxy]
      refine .cons ?_ (ih h.2)
      intro z hz
      rcases List.mem_cons.1 ((insertByDepth_perm x l).mem_iff.1 hz) with rfl | hz
      · omega
      · exact h.1 z hz

theorem sortByDepth_sorted (l : Nodes) : Sorted (sortByDepth l) := by
  induction l with
  | nil => exact .nil
  | cons x l ih => exact insertByDepth_sorted x ih

theorem get_append (a b : Nodes) (k : Key) :
    Nodes.get (a ++ b) k = (a.get k).or (b.get k) := by
  induction a with
  | nil => simp [Nodes.get]
  | cons p a ih =>
    simp only [List.cons_append, Nodes.get]
    split
    · rfl
    · exact ih

/-- Building from nodes that are sorted, of which none is twice and each is in scopes that are among
them, gives a forest with exactly these operations. -/
theorem build_ok {L : Nodes} (hn : (L.map (·.1)).Nodup) (hsort : Sorted L)
    (hsc : ∀ k o, (k, o) ∈ L → ∀ r s rest, k.ns = r ++ s :: rest →
      ∃ so, (⟨r, s⟩, so) ∈ L ∧ so.body.kind = .scope) :
    ∃ f, build .nil L = some f ∧ ∀ ns n, opAt f ns n = L.get ⟨ns, n⟩ := by
  suffices H : ∀ suf pre f, L = pre ++ suf → (∀ ns n, opAt f ns n = Nodes.get pre ⟨ns, n⟩) →
      ∃ f', build f suf = some f' ∧ ∀ ns n, opAt f' ns n = L.get ⟨ns, n⟩ from
    H L [] .nil rfl fun _ _ => rfl
  intro suf
  induction suf with
  | nil =>
    intro pre f hl hf
    rw [List.append_nil] at hl
    subst hl
    exact ⟨f, rfl, hf⟩
  | cons p suf ih =>
    obtain ⟨⟨ns, n⟩, o⟩ := p
    intro pre f hl hf
    have hsort' := hsort
    rw [hl, Sorted, List.pairwise_append] at hsort'
    obtain ⟨_, hs1, hs2⟩ := hsort'
    rw [List.pairwise_cons] at hs1
    have hn' := hn
    rw [hl, List.map_append, List.nodup_append] at hn'
    have hnone : Nodes.get pre ⟨ns, n⟩ = none := by
      cases h : Nodes.get pre ⟨ns, n⟩ with
      | none => rfl
      | some o' =>
        exact absurd rfl (hn'.2.2 ⟨ns, n⟩ (List.mem_map.2 ⟨_, get_mem h, rfl⟩) ⟨ns, n⟩ (by simp))
    have hA : ∀ r s rest, ns = r ++ s :: rest →
        ∃ so, opAt f r s = some so ∧ so.body.kind = .scope := by
      intro r s rest hr
      obtain ⟨so, h3, h4⟩ := hsc ⟨ns, n⟩ o (by rw [hl]; simp) r s rest hr
      refine ⟨so, ?_, h4⟩
      rw [hf]
      apply get_of_mem hn'.1
      rw [hl, List.mem_append] at h3
      have hlen : r.length < ns.length := by
        have := congrArg List.length hr
        simp at this
        omega
      rcases h3 with h3 | h3
      · exact h3
      · rcases List.mem_cons.1 h3 with h3 | h3
        · cases h3; omega
        · have := hs1.1 _ h3
          simp only at this
          omega
    have hB : ∀ r m, opAt f (ns ++ n :: r) m = none := by
      intro r m
      rw [hf]
      cases h : Nodes.get pre ⟨ns ++ n :: r, m⟩ with
      | none => rfl
      | some o' =>
        have := hs2 _ (get_mem h) (⟨ns, n⟩, o) (List.mem_cons_self ..)
        simp only [List.length_append, List.length_cons] at this
        omega
    obtain ⟨f', h1, h2⟩ := insert_ok (ns := ns) (n := n) (o := o) (f := f) hA hB
    have hC : ∀ q m, opAt f' q m = Nodes.get (pre ++ [(⟨ns, n⟩, o)]) ⟨q, m⟩ := by
        intro q m
        rw [h2, get_append]
        by_cases hq : q = ns ∧ m = n
        · obtain ⟨rfl, rfl⟩ := hq
          rw [if_pos ⟨rfl, rfl⟩, hnone]
          simp [Nodes.get]
        · rw [if_neg hq, hf]
          have : ¬ ((⟨ns, n⟩ : Key) = ⟨q, m⟩) := by
            intro e; cases e; exact hq ⟨rfl, rfl⟩
          simp [Nodes.get, this]
    obtain ⟨f'', h3, h4⟩ := ih (pre ++ [(⟨ns, n⟩, o)]) f' (by simp [hl]) hC
    refine ⟨f'', ?_, h4⟩
    simp only [build, h1, Option.bind_some, h3]

/-- Every operation is inside scopes. -/
theorem Editable.in_scopes {reg : Registry} {d : Diagram} (h : Editable reg d) :
    ∀ (rest : List Name) (r : List Name) (s n : Name), (opAt d.ops (r ++ s :: rest) n).isSome →
      ∃ so, opAt d.ops r s = some so ∧ so.body.kind = .scope := by
  intro rest
  induction rest with
  | nil => intro r s n hn; exact h.scopes r s n hn
  | cons x rest ih =>
    intro r s n hn
    obtain ⟨so, h1, _⟩ := ih (r ++ [s]) x n (by simpa using hn)
    exact h.scopes r s x (by rw [h1]; rfl)

end Verif.Editor
