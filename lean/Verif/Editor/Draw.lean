import Verif.Editor.DrawSpec
import Verif.Editor.Props
/-
Lemmas about exporting graphs that have been edited.
-/
namespace Verif.Editor

/-! ### Fields -/

theorem mem_setKey_self {α : Type} (l : List (Name × α)) (x : Name) (v : α) :
    (x, v) ∈ setKey l x v := by
  induction l with
  | nil => simp [setKey]
  | cons p l ih =>
    obtain ⟨x', v'⟩ := p
    simp only [setKey]
    split
    · simp
    · exact List.mem_cons_of_mem _ ih

theorem mem_setKey_ne {α : Type} {l : List (Name × α)} {x y : Name} (v : α) {w : α} (h : y ≠ x)
    (hm : (y, w) ∈ l) : (y, w) ∈ setKey l x v := by
  induction l with
  | nil => cases hm
  | cons p l ih =>
    obtain ⟨x', v'⟩ := p
    simp only [setKey]
    by_cases hx : x' = x
    · rw [if_pos hx]
      rcases List.mem_cons.1 hm with hm | hm
      · cases hm; exact absurd hx h
      · exact List.mem_cons_of_mem _ hm
    · rw [if_neg hx]
      rcases List.mem_cons.1 hm with hm | hm
      · rw [hm]; exact List.mem_cons_self ..
      · exact List.mem_cons_of_mem _ (ih hm)

theorem mem_setKey {α : Type} {l : List (Name × α)} {x : Name} {v : α} {p : Name × α}
    (h : p ∈ setKey l x v) : p = (x, v) ∨ p ∈ l := by
  induction l with
  | nil => simpa [setKey] using h
  | cons q l ih =>
    obtain ⟨x', v'⟩ := q
    simp only [setKey] at h
    split at h
    · rcases List.mem_cons.1 h with h | h
      · exact .inl h
      · exact .inr (List.mem_cons_of_mem _ h)
    · rcases List.mem_cons.1 h with h | h
      · exact .inr (by rw [h]; exact List.mem_cons_self ..)
      · rcases ih h with h | h
        · exact .inl h
        · exact .inr (List.mem_cons_of_mem _ h)

theorem setKey_keys {α : Type} {l : List (Name × α)} {x : Name} {v : α} {y : Name}
    (h : y ∈ (setKey l x v).map (·.1)) : y = x ∨ y ∈ l.map (·.1) := by
  obtain ⟨p, hp, rfl⟩ := List.mem_map.1 h
  rcases mem_setKey hp with rfl | h
  · exact .inl rfl
  · exact .inr (List.mem_map.2 ⟨p, h, rfl⟩)

theorem setKey_nodup {α : Type} {l : List (Name × α)} (x : Name) (v : α)
    (h : (l.map (·.1)).Nodup) : ((setKey l x v).map (·.1)).Nodup := by
  induction l with
  | nil => simp [setKey]
  | cons q l ih =>
    obtain ⟨x', v'⟩ := q
    rw [List.map_cons, List.nodup_cons] at h
    simp only [setKey]
    by_cases hx : x' = x
    · rw [if_pos hx, List.map_cons, List.nodup_cons, ← hx]
      exact h
    · rw [if_neg hx, List.map_cons, List.nodup_cons]
      refine ⟨?_, ih h.2⟩
      intro hm
      rcases setKey_keys hm with e | e
      · exact hx e
      · exact h.1 e

theorem setKey_ne_nil {α : Type} (l : List (Name × α)) (x : Name) (v : α) : setKey l x v ≠ [] := by
  intro h
  have := mem_setKey_self l x v
  rw [h] at this
  cases this

theorem pad_get_self {α : Type} (l : List α) (d : α) (i : Nat) (v : α) :
    ((l ++ List.replicate (i + 1 - l.length) d).set i v)[i]? = some v := by
  rw [List.getElem?_set_self]
  simp
  omega

theorem pad_get_ne {α : Type} {l : List α} (d : α) {i j : Nat} (v : α) {w : α} (h : j ≠ i)
    (hj : l[j]? = some w) : ((l ++ List.replicate (i + 1 - l.length) d).set i v)[j]? = some w := by
  rw [List.getElem?_set_ne (Ne.symm h), List.getElem?_append_left]
  · exact hj
  · exact (List.getElem?_eq_some_iff.1 hj).1

theorem mem_pad {α : Type} {l : List α} {d : α} {i : Nat} {v w : α}
    (h : w ∈ (l ++ List.replicate (i + 1 - l.length) d).set i v) : w = v ∨ w = d ∨ w ∈ l := by
  rcases List.mem_or_eq_of_mem_set h with h | h
  · rcases List.mem_append.1 h with h | h
    · exact .inr (.inr h)
    · exact .inr (.inl (List.eq_of_mem_replicate h))
  · exact .inl h

/-- The last element of a sequence is one that was set or was there. -/
theorem setSeq_last {l : List Next} {i : Nat} {v : Next} (hv : v ≠ .dispose)
    (hl : l.getLast? ≠ some .dispose) : (setSeq l i v).getLast? ≠ some .dispose := by
  unfold setSeq
  by_cases hi : i < l.length
  · have h0 : i + 1 - l.length = 0 := by omega
    rw [h0, List.replicate_zero, List.append_nil]
    rw [List.getLast?_eq_getElem?] at hl ⊢
    rw [List.length_set]
    by_cases hj : i = l.length - 1
    · rw [← hj, List.getElem?_set_self hi]
      intro h; cases h; exact hv rfl
    · rw [List.getElem?_set_ne hj]
      exact hl
  · have hlen : (l ++ List.replicate (i + 1 - l.length) Next.dispose).length = i + 1 := by
      simp; omega
    rw [List.getLast?_eq_getElem?, List.length_set, hlen, Nat.add_sub_cancel, pad_get_self]
    intro h; cases h; exact hv rfl

/-! ### Stale connections -/

theorem clear_of_same {a b : Op} (h : SameSettings a b) :
    ({ a with body := a.body.clear } : Op) = { b with body := b.body.clear } := by
  obtain ⟨h1, h2, h3⟩ := h
  obtain ⟨ea, a⟩ := a
  obtain ⟨eb, b⟩ := b
  simp only at h1 h2 h3
  subst h1
  cases a <;> cases b <;> first | rfl | cases h2 | skip
  rename_i x _ _ y _ _
  have := h3 x y _ _ _ _ rfl rfl
  subst this
  rfl

theorem same_cleared {N N' : Nodes} (h : SameNodes N N') :
    (N.map fun (k, o) => (k, ({ o with body := o.body.clear } : Op))) =
      N'.map fun (k, o) => (k, { o with body := o.body.clear }) := by
  induction N generalizing N' with
  | nil =>
    cases N' with
    | nil => rfl
    | cons p N' => exact h.elim
  | cons p N ih =>
    cases N' with
    | nil => exact h.elim
    | cons p' N' =>
      obtain ⟨h1, h2, h3⟩ := h
      simp only [List.map_cons, ih h3, h1, clear_of_same h2]

theorem same_get {N N' : Nodes} (h : SameNodes N N') (k : Key) :
    (N.get k = none ∧ N'.get k = none) ∨
      ∃ o o', N.get k = some o ∧ N'.get k = some o' ∧ SameSettings o o' := by
  induction N generalizing N' with
  | nil =>
    cases N' with
    | nil => exact .inl ⟨rfl, rfl⟩
    | cons p N' => exact h.elim
  | cons p N ih =>
    cases N' with
    | nil => exact h.elim
    | cons p' N' =>
      obtain ⟨k1, o1⟩ := p
      obtain ⟨k2, o2⟩ := p'
      obtain ⟨h1, h2, h3⟩ := h
      subst h1
      simp only [Nodes.get]
      by_cases hk : k1 = k
      · rw [if_pos hk, if_pos hk]
        exact .inr ⟨_, _, rfl, rfl, h2⟩
      · rw [if_neg hk, if_neg hk]
        exact ih h3

theorem same_kind {N N' : Nodes} (h : SameNodes N N') : N.kind = N'.kind := by
  funext k
  rcases same_get h k with ⟨h1, h2⟩ | ⟨o, o', h1, h2, h3⟩
  · simp only [Nodes.kind, h1, h2]
  · simp only [Nodes.kind, h1, h2, Option.map_some, h3.2.1]

theorem same_valid {reg : Registry} {N N' : Nodes} (h : SameNodes N N') :
    validEdge reg N = validEdge reg N' := by
  funext e
  obtain ⟨src, tgt, kind, slot⟩ := e
  cases kind <;> try rfl
  cases src <;> try rfl
  rename_i k
  simp only [validEdge]
  rcases same_get h k with ⟨h1, h2⟩ | ⟨⟨e1, b1⟩, ⟨e2, b2⟩, h1, h2, h3, h4, h5⟩
  · rw [h1, h2]
  · rw [h1, h2]
    simp only at h4 h5
    cases b1 <;> cases b2 <;> first | rfl | cases h4 | skip
    rename_i x _ _ y _ _
    have := h5 x y _ _ _ _ rfl rfl
    subst this
    rfl

/-! ### Edges that are exported -/

/-- The operations of a draft by place. -/
def Draft.ops (d : Draft) (ns : List Name) (n : Name) : Option Op := d.nodes.get ⟨ns, n⟩

/-- The type of an operation and its builder. -/
def Body.head : Body → Kind × Name
  | .node b _ _ => (.node, b)
  | b => (b.kind, "")

theorem syncOut_head {kind : EdgeKind} {t : Option Next} {b b' : Body}
    (h : syncOut kind t b = some b') : b'.head = b.head := by
  cases b <;> simp only [syncOut] at h
  all_goals (repeat' split at h)
  all_goals first
    | (cases h; done)
    | (cases h; rfl)
    | (obtain ⟨t', _, rfl⟩ := Option.map_eq_some_iff.1 h; rfl)

theorem syncBuffer_head {kinds : Key → Option Kind} {e : Edge} {id : BufId} {f : Fetch} {b b' : Body}
    (h : syncBuffer kinds e id f b = some b') : b'.head = b.head := by
  simp only [syncBuffer] at h
  split at h
  · split at h
    · split at h
      all_goals first
        | (cases h; done)
        | (obtain ⟨t', _, rfl⟩ := Option.map_eq_some_iff.1 h; rfl)
    · cases h
  · cases h

/-- What one edge does to a draft: it sets the start, or changes one operation. -/
inductive Step (kinds : Key → Option Kind) (e : Edge) (d d' : Draft) : Prop where
  | start (h : e.kind.buffer? = none) (hs : e.source = .start none) (t : Next)
      (ht : targetNext kinds e = some t) (hd : d' = { d with start := t })
  | nothing (h : e.kind.buffer? = none) (ns : List Name) (hs : e.source = .terminate ns) (hd : d' = d)
  | op (k : Key) (o : Op) (b : Body) (ho : Owned k e) (hg : d.nodes.get k = some o)
      (hb : syncBody kinds e o.body = some b) (hd : d' = { d with nodes := d.nodes.put k b })

theorem step_of {kinds : Key → Option Kind} {e : Edge} {d d' : Draft}
    (h : syncEdge kinds d e = some d') : Step kinds e d d' := by
  have hop : ∀ k, Owned k e → Step kinds e d d' := by
    intro k ho
    rw [syncEdge_owned ho, Draft.change] at h
    split at h
    · cases h
    · rename_i o hg
      obtain ⟨b, h1, h2⟩ := Option.map_eq_some_iff.1 h
      exact .op k o b ho hg h1 h2.symm
  cases hb : e.kind.buffer? with
  | some p =>
    cases ht : e.target with
    | op k => exact hop k (.inl ⟨by rw [hb]; rfl, ht⟩)
    | start p => simp only [syncEdge, hb, ht] at h; cases h
    | terminate ns => simp only [syncEdge, hb, ht] at h; cases h
  | none =>
    cases hs : e.source with
    | op k => exact hop k (.inr ⟨hb, .inl hs⟩)
    | start p =>
      cases p with
      | none =>
        simp only [syncEdge, hb, hs] at h
        obtain ⟨t, h1, h2⟩ := Option.map_eq_some_iff.1 h
        exact .start hb hs t h1 h2.symm
      | some k => exact hop k (.inr ⟨hb, .inr hs⟩)
    | terminate ns =>
      simp only [syncEdge, hb, hs] at h
      cases h
      exact .nothing hb ns hs rfl

theorem syncBody_head {kinds : Key → Option Kind} {e : Edge} {b b' : Body}
    (h : syncBody kinds e b = some b') : b'.head = b.head := by
  simp only [syncBody] at h
  split at h
  · exact syncBuffer_head h
  · split at h
    · exact syncOut_head h
    · split at h
      · obtain ⟨t', _, rfl⟩ := Option.map_eq_some_iff.1 h; rfl
      · cases h
    · cases h; rfl

theorem kind_of_head {a b : Body} (h : a.head = b.head) : a.kind = b.kind := by
  have : ∀ x : Body, x.head.1 = x.kind := by intro x; cases x <;> rfl
  rw [← this a, ← this b, h]

end Verif.Editor
