import Verif.Editor.Spec
/-
Lemmas about loading: the nodes are the operations of the diagram.
-/
namespace Verif.Editor

theorem opAt_nil_eq (f : Forest) (n : Name) : opAt f [] n = (f.find n).map (·.1) := by
  induction f with
  | nil => rfl
  | cons m o kids rest _ ih =>
    simp only [opAt, Forest.find]
    split
    · rfl
    · exact ih

theorem opAt_cons_eq (f : Forest) (s : Name) (ns : List Name) (n : Name) :
    opAt f (s :: ns) n = (f.find s).bind fun p => opAt p.2 ns n := by
  induction f with
  | nil => rfl
  | cons m o kids rest _ ih =>
    simp only [opAt, Forest.find]
    split
    · rfl
    · exact ih

theorem opAt_names {f : Forest} {n : Name} : (opAt f [] n).isSome → n ∈ f.names := by
  induction f with
  | nil => intro h; cases h
  | cons m o kids rest _ ih =>
    simp only [opAt, Forest.names]
    split
    · rename_i h; subst h; intro _; exact List.mem_cons_self ..
    · intro h; exact List.mem_cons_of_mem _ (ih h)

theorem opAt_names_cons {f : Forest} {s : Name} {ns : List Name} {n : Name} :
    (opAt f (s :: ns) n).isSome → s ∈ f.names := by
  induction f with
  | nil => intro h; cases h
  | cons m o kids rest _ ih =>
    simp only [opAt, Forest.names]
    split
    · rename_i h; subst h; intro _; exact List.mem_cons_self ..
    · intro h; exact List.mem_cons_of_mem _ (ih h)

/-- The nodes of a forest are its operations. -/
theorem mem_flatten {f : Forest} (hu : f.Uniq) (base : List Name) (k : Key) (o : Op) :
    (k, o) ∈ flatten base f ↔ ∃ r, k.ns = base ++ r ∧ opAt f r k.name = some o := by
  induction f generalizing base with
  | nil => simp [flatten, opAt]
  | cons m o' kids rest ihk ihr =>
    obtain ⟨hn, hk, hr⟩ := hu
    simp only [flatten, List.mem_append, List.mem_cons, ihr hr, ihk hk]
    constructor
    · rintro (⟨r, h1, h2⟩ | h | ⟨r, h1, h2⟩)
      · refine ⟨r, h1, ?_⟩
        cases r with
        | nil =>
          have : m ≠ k.name := fun e => hn (e ▸ opAt_names (by rw [h2]; rfl))
          simp only [opAt, if_neg this, h2]
        | cons s r =>
          have : m ≠ s := fun e => hn (e ▸ opAt_names_cons (by rw [h2]; rfl))
          simp only [opAt, if_neg this, h2]
      · cases h
        exact ⟨[], by simp, by simp [opAt]⟩
      · exact ⟨m :: r, by simp [h1], by simp [opAt, h2]⟩
    · rintro ⟨r, h1, h2⟩
      cases r with
      | nil =>
        simp only [opAt] at h2
        by_cases hm : m = k.name
        · rw [if_pos hm] at h2
          refine .inr (.inl ?_)
          cases k
          simp only [List.append_nil] at h1 hm
          cases h2; subst hm h1; rfl
        · rw [if_neg hm] at h2
          exact .inl ⟨[], h1, h2⟩
      | cons s r =>
        simp only [opAt] at h2
        by_cases hm : m = s
        · rw [if_pos hm] at h2
          exact .inr (.inr ⟨r, by simp [h1, hm], h2⟩)
        · rw [if_neg hm] at h2
          exact .inl ⟨s :: r, h1, h2⟩

theorem flatten_nodup {f : Forest} (hu : f.Uniq) (base : List Name) :
    ((flatten base f).map (·.1)).Nodup := by
  induction f generalizing base with
  | nil => exact .nil
  | cons m o' kids rest ihk ihr =>
    obtain ⟨hn, hk, hr⟩ := hu
    simp only [flatten, List.map_append, List.map_cons]
    rw [List.nodup_append]
    refine ⟨ihr hr base, ?_, ?_⟩
    · rw [List.nodup_cons]
      refine ⟨?_, ihk hk _⟩
      intro h
      obtain ⟨⟨k, o⟩, h1, h2⟩ := List.mem_map.1 h
      obtain ⟨r, h3, _⟩ := (mem_flatten hk _ _ _).1 h1
      simp only at h2
      rw [h2] at h3
      have := congrArg List.length h3
      simp at this
    · intro a ha b hb hab
      subst hab
      obtain ⟨⟨k, o⟩, h1, h2⟩ := List.mem_map.1 ha
      simp only at h2
      subst h2
      obtain ⟨r, h3, h4⟩ := (mem_flatten hr _ _ _).1 h1
      rcases List.mem_cons.1 hb with h | h
      · subst h
        have : r = [] := by simpa using h3
        subst this
        exact hn (opAt_names (by rw [h4]; rfl))
      · obtain ⟨⟨k', o'⟩, h5, h6⟩ := List.mem_map.1 h
        simp only at h6
        subst h6
        obtain ⟨r', h7, _⟩ := (mem_flatten hk _ _ _).1 h5
        rw [h3] at h7
        have h8 : r = m :: r' := by simpa using h7
        subst h8
        exact hn (opAt_names_cons (by rw [h4]; rfl))

theorem get_mem {ns : Nodes} {k : Key} {o : Op} (h : ns.get k = some o) : (k, o) ∈ ns := by
  induction ns with
  | nil => cases h
  | cons p ns ih =>
    obtain ⟨k', o'⟩ := p
    simp only [Nodes.get] at h
    split at h
    · rename_i e; subst e; cases h; exact List.mem_cons_self ..
    · exact List.mem_cons_of_mem _ (ih h)

theorem get_of_mem {ns : Nodes} (hn : (ns.map (·.1)).Nodup) {k : Key} {o : Op} (h : (k, o) ∈ ns) :
    ns.get k = some o := by
  induction ns with
  | nil => cases h
  | cons p ns ih =>
    obtain ⟨k', o'⟩ := p
    rw [List.map_cons, List.nodup_cons] at hn
    simp only [Nodes.get]
    rcases List.mem_cons.1 h with h | h
    · cases h; simp
    · have : k' ≠ k := fun e => hn.1 (List.mem_map.2 ⟨_, h, e.symm⟩)
      rw [if_neg this]
      exact ih hn.2 h

theorem get_eq_iff {ns : Nodes} (hn : (ns.map (·.1)).Nodup) {k : Key} {o : Op} :
    ns.get k = some o ↔ (k, o) ∈ ns := ⟨get_mem, get_of_mem hn⟩

/-- The node of a place is the operation there. -/
theorem get_flatten {f : Forest} (hu : f.Uniq) (k : Key) :
    (flatten [] f).get k = opAt f k.ns k.name := by
  apply Option.ext
  intro o
  rw [get_eq_iff (flatten_nodup hu []), mem_flatten hu]
  constructor
  · rintro ⟨r, h1, h2⟩
    rw [List.nil_append] at h1
    rw [h1]; exact h2
  · intro h
    exact ⟨k.ns, rfl, h⟩

/-- Two lists of nodes with the same keys, none twice, and the same operations are the same. -/
theorem nodes_ext {a b : Nodes} (hn : (a.map (·.1)).Nodup) (hk : b.map (·.1) = a.map (·.1))
    (hg : ∀ k ∈ a.map (·.1), b.get k = a.get k) : b = a := by
  induction a generalizing b with
  | nil => simpa using hk
  | cons p a ih =>
    cases b with
    | nil => simp at hk
    | cons q b =>
      obtain ⟨k, o⟩ := p
      obtain ⟨k', o'⟩ := q
      simp only [List.map_cons, List.cons.injEq] at hk
      obtain ⟨h1, h2⟩ := hk
      subst h1
      rw [List.map_cons, List.nodup_cons] at hn
      have h3 := hg k' (by simp)
      simp only [Nodes.get, if_pos] at h3
      cases h3
      rw [ih hn.2 h2 ?_]
      intro j hj
      have h4 := hg j (by simp [hj])
      have : k' ≠ j := fun e => hn.1 (e ▸ hj)
      simpa only [Nodes.get, if_neg this] using h4

theorem get_append_none {a b : Nodes} {k : Key} (h : a.get k = none) :
    Nodes.get (a ++ b) k = b.get k := by
  induction a with
  | nil => rfl
  | cons p a ih =>
    simp only [Nodes.get] at h
    split at h
    · cases h
    · rename_i hk
      simp only [List.cons_append, Nodes.get, if_neg hk]
      exact ih h

theorem get_map_body (ns : Nodes) (f : Body → Body) (k : Key) :
    Nodes.get (ns.map fun (k, o) => (k, { o with body := f o.body })) k =
      (ns.get k).map fun o => { o with body := f o.body } := by
  induction ns with
  | nil => rfl
  | cons p ns ih =>
    obtain ⟨k', o⟩ := p
    simp only [List.map_cons, Nodes.get]
    split
    · rfl
    · exact ih

theorem get_put_self {ns : Nodes} {k : Key} {o : Op} (b : Body) (h : ns.get k = some o) :
    (ns.put k b).get k = some { o with body := b } := by
  induction ns with
  | nil => cases h
  | cons p ns ih =>
    obtain ⟨k', o'⟩ := p
    simp only [Nodes.get] at h
    simp only [Nodes.put, List.map_cons]
    by_cases hk : k' = k
    · rw [if_pos hk] at h
      cases h
      rw [if_pos hk]; simp only [Nodes.get, if_pos hk]
    · rw [if_neg hk] at h
      rw [if_neg hk]; simp only [Nodes.get, if_neg hk]
      exact ih h

theorem get_put_ne {ns : Nodes} {k j : Key} (b : Body) (hj : j ≠ k) :
    (ns.put k b).get j = ns.get j := by
  induction ns with
  | nil => rfl
  | cons p ns ih =>
    obtain ⟨k', o'⟩ := p
    simp only [Nodes.put, List.map_cons]
    by_cases hk : k' = k
    · rw [if_pos hk]
      have : k' ≠ j := fun e => hj (e.symm.trans hk)
      simp only [Nodes.get, if_neg this]
      exact ih
    · rw [if_neg hk]
      simp only [Nodes.get]
      split
      · rfl
      · exact ih

theorem keys_put (ns : Nodes) (k : Key) (b : Body) :
    (ns.put k b).map (·.1) = ns.map (·.1) := by
  simp only [Nodes.put, List.map_map]
  apply List.map_congr_left
  rintro ⟨k', o⟩ _
  simp only [Function.comp]
  split <;> rfl

end Verif.Editor
