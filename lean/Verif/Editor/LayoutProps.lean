import Verif.Editor.LayoutSpec
import Verif.Editor.EditWitness
/-
C131: the automatic layout of the diagram editor.
-/
namespace Verif.Editor

/-! ### Lists -/

theorem allSome_map {α β : Type} {f : α → Option β} {g : α → β} {l : List α}
    (h : ∀ a ∈ l, f a = some (g a)) : allSome f l = some (l.map g) := by
  induction l with
  | nil => rfl
  | cons a l ih =>
    rw [allSome, h a List.mem_cons_self, ih fun x hx => h x (List.mem_cons_of_mem _ hx)]
    rfl

theorem allSome_none {α β : Type} {f : α → Option β} {l : List α} {a : α} (ha : a ∈ l)
    (h : f a = none) : allSome f l = none := by
  induction l with
  | nil => cases ha
  | cons x l ih =>
    rw [allSome]
    rcases List.mem_cons.1 ha with rfl | ha
    · rw [h]
    · rw [ih ha]
      cases f x <;> rfl

theorem allSome_get {α β : Type} {f : α → Option β} {l : List α} (h : ∀ a ∈ l, ∃ b, f a = some b) :
    ∃ r, allSome f l = some r ∧ (∀ a ∈ l, ∃ b ∈ r, f a = some b) ∧ ∀ b ∈ r, ∃ a ∈ l, f a = some b := by
  induction l with
  | nil => exact ⟨[], rfl, by simp, by simp⟩
  | cons a l ih =>
    obtain ⟨b, hb⟩ := h a List.mem_cons_self
    obtain ⟨r, hr, h1, h2⟩ := ih fun x hx => h x (List.mem_cons_of_mem _ hx)
    refine ⟨b :: r, by rw [allSome, hb, hr]; rfl, ?_, ?_⟩
    · intro x hx
      rcases List.mem_cons.1 hx with rfl | hx
      · exact ⟨b, List.mem_cons_self, hb⟩
      · obtain ⟨y, hy, e⟩ := h1 x hx
        exact ⟨y, List.mem_cons_of_mem _ hy, e⟩
    · intro y hy
      rcases List.mem_cons.1 hy with rfl | hy
      · exact ⟨a, List.mem_cons_self, hb⟩
      · obtain ⟨x, hx, e⟩ := h2 y hy
        exact ⟨x, List.mem_cons_of_mem _ hx, e⟩

theorem allSome_append {α β : Type} {f : α → Option β} {l m : List α} {r : List β}
    (h : allSome f (l ++ m) = some r) :
    ∃ r1 r2, allSome f l = some r1 ∧ allSome f m = some r2 ∧ r = r1 ++ r2 := by
  induction l generalizing r with
  | nil => exact ⟨[], r, rfl, h, rfl⟩
  | cons a l ih =>
    rw [List.cons_append, allSome] at h
    cases hf : f a with
    | none => rw [hf] at h; cases h
    | some b =>
      rw [hf] at h
      simp only [Option.map_eq_some_iff] at h
      obtain ⟨q, hq, rfl⟩ := h
      obtain ⟨r1, r2, h1, h2, rfl⟩ := ih hq
      exact ⟨b :: r1, r2, by rw [allSome, hf, h1]; rfl, h2, rfl⟩

theorem least_le (a : Int) (l : List Int) : least a l ≤ a ∧ ∀ x ∈ l, least a l ≤ x := by
  unfold least
  induction l generalizing a with
  | nil => simp
  | cons y l ih =>
    rw [List.foldl_cons]
    obtain ⟨h1, h2⟩ := ih (min a y)
    refine ⟨by omega, fun x hx => ?_⟩
    rcases List.mem_cons.1 hx with rfl | hx
    · omega
    · exact h2 x hx

theorem least_mem (a : Int) (l : List Int) : least a l = a ∨ least a l ∈ l := by
  unfold least
  induction l generalizing a with
  | nil => simp
  | cons y l ih =>
    rw [List.foldl_cons]
    rcases ih (min a y) with h | h
    · rw [h]
      by_cases hay : a ≤ y
      · left; omega
      · right
        have : min a y = y := by omega
        rw [this]; exact List.mem_cons_self
    · exact Or.inr (List.mem_cons_of_mem _ h)

theorem le_most (a : Int) (l : List Int) : a ≤ most a l ∧ ∀ x ∈ l, x ≤ most a l := by
  unfold most
  induction l generalizing a with
  | nil => simp
  | cons y l ih =>
    rw [List.foldl_cons]
    obtain ⟨h1, h2⟩ := ih (max a y)
    refine ⟨by omega, fun x hx => ?_⟩
    rcases List.mem_cons.1 hx with rfl | hx
    · omega
    · exact h2 x hx

theorem most_mem (a : Int) (l : List Int) : most a l = a ∨ most a l ∈ l := by
  unfold most
  induction l generalizing a with
  | nil => simp
  | cons y l ih =>
    rw [List.foldl_cons]
    rcases ih (max a y) with h | h
    · rw [h]
      by_cases hay : y ≤ a
      · left; omega
      · right
        have : max a y = y := by omega
        rw [this]; exact List.mem_cons_self
    · exact Or.inr (List.mem_cons_of_mem _ h)

/-- The box of some positions goes around them, with the margins and no more. -/
theorem bounds_spec (o : Opts) (l : List Pos) (hl : l ≠ []) :
    (∀ p ∈ l, (bounds o l).x + o.leftRight ≤ p.x ∧
      p.x + o.nodeWidth + o.leftRight ≤ (bounds o l).x + (bounds o l).width ∧
      (bounds o l).y + o.topBottom ≤ p.y ∧
      p.y + o.nodeHeight + o.topBottom ≤ (bounds o l).y + (bounds o l).height) ∧
    (∃ p ∈ l, p.x = (bounds o l).x + o.leftRight) ∧
    (∃ p ∈ l, p.x + o.nodeWidth + o.leftRight = (bounds o l).x + (bounds o l).width) ∧
    (∃ p ∈ l, p.y = (bounds o l).y + o.topBottom) ∧
    (∃ p ∈ l, p.y + o.nodeHeight + o.topBottom = (bounds o l).y + (bounds o l).height) := by
  cases l with
  | nil => exact absurd rfl hl
  | cons q l =>
    have a1 := least_le q.x (l.map (·.x))
    have a2 := le_most (q.x + o.nodeWidth) (l.map fun n => n.x + o.nodeWidth)
    have a3 := least_le q.y (l.map (·.y))
    have a4 := le_most (q.y + o.nodeHeight) (l.map fun n => n.y + o.nodeHeight)
    have b1 := least_mem q.x (l.map (·.x))
    have b2 := most_mem (q.x + o.nodeWidth) (l.map fun n => n.x + o.nodeWidth)
    have b3 := least_mem q.y (l.map (·.y))
    have b4 := most_mem (q.y + o.nodeHeight) (l.map fun n => n.y + o.nodeHeight)
    simp only [bounds]
    generalize least q.x (l.map (·.x)) = m1 at *
    generalize most (q.x + o.nodeWidth) (l.map fun n => n.x + o.nodeWidth) = m2 at *
    generalize least q.y (l.map (·.y)) = m3 at *
    generalize most (q.y + o.nodeHeight) (l.map fun n => n.y + o.nodeHeight) = m4 at *
    refine ⟨?_, ?_, ?_, ?_, ?_⟩
    · intro p hp
      rcases List.mem_cons.1 hp with rfl | hp
      · omega
      · have c1 := a1.2 _ (List.mem_map_of_mem hp)
        have c2 := a2.2 _ (List.mem_map_of_mem (f := fun n : Pos => n.x + o.nodeWidth) hp)
        have c3 := a3.2 _ (List.mem_map_of_mem hp)
        have c4 := a4.2 _ (List.mem_map_of_mem (f := fun n : Pos => n.y + o.nodeHeight) hp)
        omega
    · rcases b1 with h | h
      · exact ⟨q, List.mem_cons_self, by omega⟩
      · obtain ⟨p, hp, e⟩ := List.mem_map.1 h
        exact ⟨p, List.mem_cons_of_mem _ hp, by omega⟩
    · rcases b2 with h | h
      · exact ⟨q, List.mem_cons_self, by omega⟩
      · obtain ⟨p, hp, e⟩ := List.mem_map.1 h
        exact ⟨p, List.mem_cons_of_mem _ hp, by omega⟩
    · rcases b3 with h | h
      · exact ⟨q, List.mem_cons_self, by omega⟩
      · obtain ⟨p, hp, e⟩ := List.mem_map.1 h
        exact ⟨p, List.mem_cons_of_mem _ hp, by omega⟩
    · rcases b4 with h | h
      · exact ⟨q, List.mem_cons_self, by omega⟩
      · obtain ⟨p, hp, e⟩ := List.mem_map.1 h
        exact ⟨p, List.mem_cons_of_mem _ hp, by omega⟩

/-! ### Applying changes -/

theorem apply_pos {l : List Change} {id : Uid} {p : Pos} (hp : .position id p ∈ l)
    (hu : ∀ q, .position id q ∈ l → q = p) (v : View) : (v.applyAll l).pos id = p := by
  have key : ∀ (l : List Change) (v : View), (∀ q, .position id q ∈ l → q = p) →
      (.position id p ∈ l ∨ v.pos id = p) → (v.applyAll l).pos id = p := by
    intro l
    induction l with
    | nil => intro v _ h; exact h.resolve_left (by simp)
    | cons c l ih =>
      intro v hu h
      refine ih (v.apply c) (fun q hq => hu q (List.mem_cons_of_mem _ hq)) ?_
      cases c with
      | position i q =>
        by_cases hi : id = i
        · subst hi
          right
          simp [View.apply, hu q List.mem_cons_self]
        · rcases h with h | h
          · rcases List.mem_cons.1 h with e | h
            · cases e; exact absurd rfl hi
            · exact Or.inl h
          · right; simp [View.apply, hi, h]
      | dimensions i w h' =>
        rcases h with h | h
        · rcases List.mem_cons.1 h with e | h
          · cases e
          · exact Or.inl h
        · exact Or.inr h
  exact key l v hu (Or.inl hp)

theorem apply_size {l : List Change} {id : Uid} {w h : Int} (hp : .dimensions id w h ∈ l)
    (hu : ∀ w' h', .dimensions id w' h' ∈ l → w' = w ∧ h' = h) (v : View) :
    (v.applyAll l).size id = some (w, h) := by
  have key : ∀ (l : List Change) (v : View),
      (∀ w' h', .dimensions id w' h' ∈ l → w' = w ∧ h' = h) →
      (.dimensions id w h ∈ l ∨ v.size id = some (w, h)) → (v.applyAll l).size id = some (w, h) := by
    intro l
    induction l with
    | nil => intro v _ h; exact h.resolve_left (by simp)
    | cons c l ih =>
      intro v hu hh
      refine ih (v.apply c) (fun a b hq => hu a b (List.mem_cons_of_mem _ hq)) ?_
      cases c with
      | dimensions i w' h' =>
        by_cases hi : id = i
        · subst hi
          right
          obtain ⟨e1, e2⟩ := hu w' h' List.mem_cons_self
          simp [View.apply, e1, e2]
        · rcases hh with hh | hh
          · rcases List.mem_cons.1 hh with e | hh
            · cases e; exact absurd rfl hi
            · exact Or.inl hh
          · right; simp [View.apply, hi, hh]
      | position i q =>
        rcases hh with hh | hh
        · rcases List.mem_cons.1 hh with e | hh
          · cases e
          · exact Or.inl hh
        · exact Or.inr hh
  exact key l v hu (Or.inl hp)

/-! ### Scopes -/

theorem isScope_iff (n : Node) : n.isScope = true ↔ n.Scope := by
  unfold Node.isScope Node.Scope
  cases h : n.item with
  | op ns name o =>
    simp only [beq_iff_eq, Item.op.injEq]
    constructor
    · exact fun e => ⟨ns, name, o, ⟨rfl, rfl, rfl⟩, e⟩
    · rintro ⟨_, _, _, ⟨_, _, rfl⟩, e⟩; exact e
  | start => simp
  | terminate => simp

theorem inScope_some {b : Board} {p : Uid} {i : Item} {n : Node} (h : b.inScope p i = some n) :
    n ∈ b.nodes ∧ n.parent = some p ∧ n.item = i := by
  have := List.find?_some h
  simp only [Bool.and_eq_true, beq_iff_eq] at this
  exact ⟨List.mem_of_find?_eq_some h, this.1, this.2⟩

theorem inScope_none {b : Board} {p : Uid} {i : Item} :
    b.inScope p i = none ↔ ∀ n ∈ b.nodes, n.parent = some p → n.item ≠ i := by
  unfold Board.inScope
  rw [List.find?_eq_none]
  constructor
  · intro h n hn hp hi
    exact h n hn (by simp [hp, hi])
  · intro h n hn hc
    simp only [Bool.and_eq_true, beq_iff_eq] at hc
    exact h n hn hc.1 hc.2

/-- The edge that dagre is given, unless both ends are scopes. -/
theorem dagreEdge_told {b : Board} (h : Sound b) (hw : b.Whole) {e : Wire} (he : e ∈ b.edges) :
    ∃ d, b.dagreEdge e = some d ∧ (¬ e.Scopes b → Told b e d) := by
  obtain ⟨s, hs, t, ht, e1, e2, _⟩ := h.ends e he
  have n1 : b.node e.source = some s := by rw [← e1]; exact h.node hs
  have n2 : b.node e.target = some t := by rw [← e2]; exact h.node ht
  unfold Board.dagreEdge
  simp only [n1, n2]
  by_cases st : t.isScope = true
  · rw [if_pos st]
    have st' := (isScope_iff t).1 st
    cases hi : b.inScope t.id .start with
    | none =>
      obtain ⟨n, hn, hp, hi'⟩ := (hw t ht st').1
      exact absurd hi' (inScope_none.1 hi n hn hp)
    | some n =>
      obtain ⟨m1, m2, m3⟩ := inScope_some hi
      refine ⟨_, rfl, fun hne => ⟨s, hs, t, ht, e1, e2, ⟨fun hss => ?_, fun _ => e1.symm⟩,
        ⟨fun _ => ⟨n, m1, m2, m3, rfl⟩, fun x => absurd st' x⟩, fun _ => rfl, fun x => absurd st' x.2⟩⟩
      exact absurd ⟨s, hs, t, ht, e1, e2, hss, st'⟩ hne
  · rw [if_neg st]
    have st' : ¬ t.Scope := fun x => st ((isScope_iff t).2 x)
    by_cases ss : s.isScope = true
    · rw [if_pos ss]
      have ss' := (isScope_iff s).1 ss
      cases hi : b.inScope s.id .terminate with
      | none =>
        obtain ⟨n, hn, hp, hi'⟩ := (hw s hs ss').2
        exact absurd hi' (inScope_none.1 hi n hn hp)
      | some n =>
        obtain ⟨m1, m2, m3⟩ := inScope_some hi
        exact ⟨_, rfl, fun _ => ⟨s, hs, t, ht, e1, e2, ⟨fun _ => ⟨n, m1, m2, m3, rfl⟩,
          fun x => absurd ss' x⟩, ⟨fun x => absurd x st', fun _ => e2.symm⟩, fun _ => rfl,
          fun x => absurd ss' x.1⟩⟩
    · rw [if_neg ss]
      have ss' : ¬ s.Scope := fun x => ss ((isScope_iff s).2 x)
      exact ⟨_, rfl, fun _ => ⟨s, hs, t, ht, e1, e2, ⟨fun x => absurd x ss', fun _ => e1.symm⟩,
        ⟨fun x => absurd x st', fun _ => e2.symm⟩, fun x => absurd x (not_or.2 ⟨ss', st'⟩),
        fun _ => rfl⟩⟩

theorem late_iff (e : Wire) : (e.kind.type == .stream || e.kind.type == .err) = true ↔ e.Late := by
  unfold Wire.Late
  cases e.kind <;> simp [EdgeKind.type]

theorem edges_told {b : Board} (h : Sound b) (hw : b.Whole) :
    ∃ es, allSome b.dagreEdge (prioritized b.edges) = some es ∧ AllTold b es := by
  have hm : ∀ e ∈ prioritized b.edges, e ∈ b.edges := by
    intro e he
    rcases List.mem_append.1 he with he | he <;> exact (List.mem_filter.1 he).1
  obtain ⟨es, hes, _, _⟩ := allSome_get (f := b.dagreEdge) (l := prioritized b.edges)
    fun e he => (dagreEdge_told h hw (hm e he)).imp fun _ x => x.1
  obtain ⟨r1, r2, g1, g2, rfl⟩ := allSome_append hes
  refine ⟨_, hes, r1, r2, rfl, ?_⟩
  have part : ∀ (f : Wire → Bool) (r : List DEdge), allSome b.dagreEdge (b.edges.filter f) = some r →
      (∀ e ∈ b.edges, ¬ e.Scopes b → f e = true → ∃ d ∈ r, Told b e d) ∧
      ∀ d ∈ r, ∃ e ∈ b.edges, f e = true ∧ (¬ e.Scopes b → Told b e d) := by
    intro f r hr
    obtain ⟨r', hr', x1, x2⟩ := allSome_get (f := b.dagreEdge) (l := b.edges.filter f)
      fun e he => (dagreEdge_told h hw (List.mem_filter.1 he).1).imp fun _ x => x.1
    rw [hr] at hr'
    cases hr'
    constructor
    · intro e he hne hf
      obtain ⟨d, hd, ed⟩ := x1 e (List.mem_filter.2 ⟨he, hf⟩)
      obtain ⟨d', ed', td⟩ := dagreEdge_told h hw he
      rw [ed] at ed'
      cases ed'
      exact ⟨d, hd, td hne⟩
    · intro d hd
      obtain ⟨e, he, ed⟩ := x2 d hd
      obtain ⟨he1, he2⟩ := List.mem_filter.1 he
      obtain ⟨d', ed', td⟩ := dagreEdge_told h hw he1
      rw [ed] at ed'
      cases ed'
      exact ⟨e, he1, he2, td⟩
  obtain ⟨p1, p2⟩ := part _ _ g1
  obtain ⟨q1, q2⟩ := part _ _ g2
  have nl : ∀ e : Wire, (!(e.kind.type == .stream || e.kind.type == .err)) = true ↔ ¬ e.Late := by
    intro e
    rw [← late_iff]
    simp
  exact ⟨fun e he hn hl => p1 e he hn ((nl e).2 hl), fun e he hn hl => q1 e he hn ((late_iff e).2 hl),
    fun d hd => (p2 d hd).imp fun e x => ⟨x.1, (nl e).1 x.2.1, x.2.2⟩,
    fun d hd => (q2 d hd).imp fun e x => ⟨x.1, (late_iff e).1 x.2.1, x.2.2⟩⟩

/-! ### Scopes stay whole -/

theorem Whole.of_map {b c : Board} (h : b.Whole) (f : Node → Node) (hc : c.nodes = b.nodes.map f)
    (hid : ∀ n, (f n).id = n.id) (hp : ∀ n, (f n).parent = n.parent)
    (hs : ∀ n, n.item = .start → (f n).item = .start)
    (ht : ∀ n, n.item = .terminate → (f n).item = .terminate)
    (hsc : ∀ n, (f n).Scope → n.Scope) : c.Whole := by
  intro m hm hms
  rw [hc] at hm ⊢
  obtain ⟨n, hn, rfl⟩ := List.mem_map.1 hm
  obtain ⟨⟨x, x1, x2, x3⟩, ⟨y, y1, y2, y3⟩⟩ := h n hn (hsc n hms)
  exact ⟨⟨f x, List.mem_map_of_mem x1, by rw [hp, hid, x2], hs x x3⟩,
    ⟨f y, List.mem_map_of_mem y1, by rw [hp, hid, y2], ht y y3⟩⟩

theorem Whole.modify {b : Board} (h : b.Whole) (id : Uid) (f : List Name → Name → Op → Item)
    (hf : ∀ ns name o, (∃ ns' name' o', f ns name o = .op ns' name' o' ∧ o'.body.kind = .scope) →
      o.body.kind = .scope) : (b.modify id f).Whole := by
  refine Whole.of_map h _ rfl ?_ ?_ ?_ ?_ ?_
  · intro n; split
    · split <;> rfl
    · rfl
  · intro n; split
    · split <;> rfl
    · rfl
  · intro n hn; split
    · split
      · rename_i e; rw [hn] at e; cases e
      · exact hn
    · exact hn
  · intro n hn; split
    · split
      · rename_i e; rw [hn] at e; cases e
      · exact hn
    · exact hn
  · intro n hn
    split at hn
    · split at hn
      · rename_i ns name o e
        obtain ⟨ns', name', o', e1, e2⟩ := hn
        exact ⟨ns, name, o, e, hf ns name o ⟨ns', name', o', e1, e2⟩⟩
      · exact hn
    · exact hn

theorem Whole.edit {b c : Board} (h : b.Whole) (he : Edit b c) (hk : KeepsEnds b c) : c.Whole := by
  have same : ∀ c : Board, c.nodes = b.nodes → c.Whole := by
    intro c hc
    exact Whole.of_map h id (by simpa using hc) (fun _ => rfl) (fun _ => rfl) (fun _ x => x)
      (fun _ x => x) fun _ x => x
  cases he with
  | add parent id i1 i2 name o hid hname =>
    unfold Board.add
    split
    · intro m hm hms
      simp only [List.mem_append] at hm ⊢
      rcases hm with hm | hm
      · obtain ⟨⟨x, x1, x2⟩, ⟨y, y1, y2⟩⟩ := h m hm hms
        exact ⟨⟨x, Or.inl x1, x2⟩, ⟨y, Or.inl y1, y2⟩⟩
      · split at hm
        · rename_i hs
          simp only [List.mem_cons, List.not_mem_nil, or_false] at hm
          rcases hm with rfl | rfl | rfl
          · exact ⟨⟨⟨i1, some id, .start⟩, Or.inr (by simp [hs]), rfl, rfl⟩,
              ⟨⟨i2, some id, .terminate⟩, Or.inr (by simp [hs]), rfl, rfl⟩⟩
          · obtain ⟨_, _, _, e, _⟩ := hms; cases e
          · obtain ⟨_, _, _, e, _⟩ := hms; cases e
        · rename_i hs
          simp only [List.mem_cons, List.not_mem_nil, or_false] at hm
          subst hm
          obtain ⟨_, _, _, e, e'⟩ := hms
          cases e
          exact absurd e' hs
    · exact h
  | setOp id o =>
    refine Whole.modify h _ _ ?_
    rintro ns name o' ⟨_, _, _, e, e'⟩
    cases e
    split at e'
    · rename_i hk'; rw [← hk']; exact e'
    · exact e'
  | rename id name hleaf hname =>
    refine Whole.modify h _ _ ?_
    rintro ns name' o' ⟨_, _, _, e, e'⟩
    cases e
    exact e'
  | remove ids =>
    intro m hm hms
    have hm' : m ∈ b.nodes := (List.mem_filter.1 hm).1
    obtain ⟨⟨x, x1, x2, x3⟩, ⟨y, y1, y2, y3⟩⟩ := h m hm' hms
    exact ⟨⟨x, hk x x1 (Or.inl x3) m hm x2, x2, x3⟩, ⟨y, hk y y1 (Or.inr y3) m hm y2, y2, y3⟩⟩
  | connect id source hd target hid =>
    refine same _ ?_
    unfold Board.connect
    repeat' (first | rfl | split)
  | reconnect id source hd target =>
    refine same _ ?_
    unfold Board.reconnect
    repeat' (first | rfl | split)
  | field id f => exact same _ rfl
  | removeEdge id => exact same _ rfl

theorem Draws.edits {b : Board} (h : Draws b) : Edits Board.empty b := by
  induction h with
  | empty => exact .none _
  | step _ he _ ih => exact ih.more he

theorem Draws.whole {b : Board} (h : Draws b) : b.Whole := by
  induction h with
  | empty =>
    intro m hm hms
    obtain ⟨_, _, _, e, _⟩ := hms
    simp only [Board.empty, List.mem_cons, List.not_mem_nil, or_false] at hm
    rcases hm with rfl | rfl <;> cases e
  | step _ he hk ih => exact Whole.edit ih he hk

/-! ### C131 -/

theorem mem_plain {b : Board} {n : Node} : n ∈ b.plain ↔ n ∈ b.nodes ∧ ¬ n.Scope := by
  unfold Board.plain
  rw [List.mem_filter, ← isScope_iff]
  simp

theorem mem_children {b : Board} {n : Node} {p : Uid} :
    n ∈ b.children p ↔ n ∈ b.nodes ∧ n.parent = some p := by
  unfold Board.children
  rw [List.mem_filter]
  simp

theorem mem_parents {b : Board} (h : Sound b) {p : Uid} :
    p ∈ b.parents ↔ ∃ n ∈ b.nodes, n.parent = some p := by
  unfold Board.parents
  rw [List.mem_eraseDups, List.mem_filterMap]
  constructor
  · rintro ⟨n, hn, e⟩
    exact ⟨n, hn, (Option.filter_eq_some_iff.1 e).1⟩
  · rintro ⟨n, hn, e⟩
    obtain ⟨m, hm, rfl, _⟩ := h.inside n hn p e
    exact ⟨n, hn, Option.filter_eq_some_iff.2 ⟨e, by rw [h.node hm]; rfl⟩⟩

theorem placed_plain {b : Board} {dagre : Dagre} {es : List DEdge} {n : Node} (hn : n ∈ b.nodes)
    (hs : ¬ n.Scope) : b.placed dagre es n.id = some (dagre (b.plain.map (·.id)) es n.id) := by
  unfold Board.placed
  rw [if_pos]
  exact List.any_eq_true.2 ⟨n, mem_plain.2 ⟨hn, hs⟩, by simp⟩

theorem placed_scope {b : Board} (h : Sound b) {dagre : Dagre} {es : List DEdge} {n : Node}
    (hn : n ∈ b.nodes) (hs : n.Scope) : b.placed dagre es n.id = none := by
  unfold Board.placed
  rw [if_neg]
  intro hc
  obtain ⟨m, hm, e⟩ := List.any_eq_true.1 hc
  obtain ⟨hm1, hm2⟩ := mem_plain.1 hm
  have : m = n := id_inj h.ids hm1 hn (by simpa using e)
  exact hm2 (this ▸ hs)

theorem layout_does (o : Opts) (dagre : Dagre) (b : Board) (h : Sound b) (hf : b.Flat)
    (hw : b.Whole) :
    ∃ cs es ids, b.layout o dagre = some cs ∧ AllTold b es ∧
      (∀ x, x ∈ ids ↔ ∃ n ∈ b.nodes, n.id = x ∧ ¬ n.Scope) ∧
      ∀ v : View,
        (∀ n ∈ b.nodes, ¬ n.Scope → OnScreen b (v.applyAll cs) n.id (dagre ids es n.id)) ∧
        ∀ m ∈ b.nodes, m.Scope → Boxed o (v.applyAll cs) m.id
          ((b.nodes.filter fun n => n.parent = some m.id).map (·.id)) := by
  obtain ⟨es, hes, told⟩ := edges_told h hw
  let ids := b.plain.map (·.id)
  let at_ : Uid → Pos := dagre ids es
  let box : Uid → Rect := fun p => bounds o ((b.children p).map fun n => at_ n.id)
  have inner : ∀ n ∈ b.nodes, ∀ p, n.parent = some p → ¬ n.Scope := by
    intro n hn p hp hs
    rw [hf n hn hs] at hp
    cases hp
  have hboxes : allSome (fun p => (allSome (fun n => b.placed dagre es n.id) (b.children p)).map
      fun l => (p, bounds o l)) b.parents = some (b.parents.map fun p => (p, box p)) := by
    apply allSome_map
    intro p _
    rw [allSome_map (g := fun n => at_ n.id)]
    · rfl
    · intro n hn
      obtain ⟨hn1, hn2⟩ := mem_children.1 hn
      exact placed_plain hn1 (inner n hn1 p hn2)
  let rel : Node → Pos := fun n =>
    match n.parent with
    | none => at_ n.id
    | some p => ⟨(at_ n.id).x - (box p).x, (at_ n.id).y - (box p).y⟩
  have hfind : ∀ p ∈ b.parents, (b.parents.map fun p => (p, box p)).find? (fun x => x.1 == p) =
      some (p, box p) := by
    intro p hp
    generalize b.parents = l at hp
    induction l with
    | nil => cases hp
    | cons q l ih =>
      rw [List.map_cons, List.find?_cons]
      by_cases hq : q = p
      · subst hq; simp
      · have : (q == p) = false := by simpa using hq
        simp only [this]
        exact ih ((List.mem_cons.1 hp).resolve_left fun e => hq e.symm)
  have hchanges : allSome (nodeChange (b.placed dagre es) (b.parents.map fun p => (p, box p))) b.plain =
      some (b.plain.map fun n => .position n.id (rel n)) := by
    apply allSome_map
    intro n hn
    obtain ⟨hn1, hn2⟩ := mem_plain.1 hn
    unfold nodeChange
    rw [placed_plain hn1 hn2]
    simp only [rel]
    cases hp : n.parent with
    | none => rfl
    | some p =>
      simp only
      rw [hfind p ((mem_parents h).2 ⟨n, hn1, hp⟩)]
  let cs : List Change := (b.plain.map fun n => .position n.id (rel n)) ++
    (b.parents.map fun p => (p, box p)).flatMap fun x =>
      [.position x.1 ⟨x.2.x, x.2.y⟩, .dimensions x.1 x.2.width x.2.height]
  have hl : b.layout o dagre = some cs := by
    unfold Board.layout
    rw [hes]
    simp only
    rw [hboxes]
    simp only
    rw [hchanges]
  -- a node that is not a scope gets one position, and a scope gets one and a size
  have scopeOf : ∀ p ∈ b.parents, ∃ m ∈ b.nodes, m.id = p ∧ m.Scope := by
    intro p hp
    obtain ⟨n, hn, e⟩ := (mem_parents h).1 hp
    obtain ⟨m, hm, e', ns, name, op, hi, hk, _⟩ := h.inside n hn p e
    exact ⟨m, hm, e', ns, name, op, hi, hk⟩
  have mempos : ∀ x q, Change.position x q ∈ cs →
      (∃ n ∈ b.plain, n.id = x ∧ q = rel n) ∨ (x ∈ b.parents ∧ q = ⟨(box x).x, (box x).y⟩) := by
    intro x q hq
    rcases List.mem_append.1 hq with hq | hq
    · obtain ⟨n, hn, e⟩ := List.mem_map.1 hq
      cases e
      exact Or.inl ⟨n, hn, rfl, rfl⟩
    · obtain ⟨y, hy, e⟩ := List.mem_flatMap.1 hq
      obtain ⟨p, hp, rfl⟩ := List.mem_map.1 hy
      simp at e
      obtain ⟨rfl, rfl⟩ := e
      exact Or.inr ⟨hp, rfl⟩
  have posPlain : ∀ v : View, ∀ n ∈ b.nodes, ¬ n.Scope → (v.applyAll cs).pos n.id = rel n := by
    intro v n hn hs
    refine apply_pos (List.mem_append_left _ (List.mem_map.2 ⟨n, mem_plain.2 ⟨hn, hs⟩, rfl⟩)) ?_ v
    intro q hq
    rcases mempos _ _ hq with ⟨m, hm, e, rfl⟩ | ⟨hp, _⟩
    · rw [id_inj h.ids (mem_plain.1 hm).1 hn e]
    · obtain ⟨m, hm, e, hms⟩ := scopeOf _ hp
      exact absurd (id_inj h.ids hm hn e ▸ hms) hs
  have posScope : ∀ v : View, ∀ p ∈ b.parents,
      (v.applyAll cs).pos p = ⟨(box p).x, (box p).y⟩ := by
    intro v p hp
    refine apply_pos (List.mem_append_right _ (List.mem_flatMap.2
      ⟨(p, box p), List.mem_map.2 ⟨p, hp, rfl⟩, by simp⟩)) ?_ v
    intro q hq
    rcases mempos _ _ hq with ⟨n, hn, e, _⟩ | ⟨_, e⟩
    · obtain ⟨m, hm, e', hms⟩ := scopeOf _ hp
      obtain ⟨hn1, hn2⟩ := mem_plain.1 hn
      exact absurd (id_inj h.ids hm hn1 (e'.trans e.symm) ▸ hms) hn2
    · exact e
  have sizeScope : ∀ v : View, ∀ p ∈ b.parents,
      (v.applyAll cs).size p = some ((box p).width, (box p).height) := by
    intro v p hp
    refine apply_size (List.mem_append_right _ (List.mem_flatMap.2
      ⟨(p, box p), List.mem_map.2 ⟨p, hp, rfl⟩, by simp⟩)) ?_ v
    intro w h' hq
    rcases List.mem_append.1 hq with hq | hq
    · obtain ⟨n, _, e⟩ := List.mem_map.1 hq
      cases e
    · obtain ⟨y, hy, e⟩ := List.mem_flatMap.1 hq
      obtain ⟨p', _, rfl⟩ := List.mem_map.1 hy
      simp at e
      obtain ⟨rfl, rfl, rfl⟩ := e
      exact ⟨rfl, rfl⟩
  refine ⟨cs, es, ids, hl, told, ?_, fun v => ⟨fun n hn hs => ?_, fun m hm hms => ?_⟩⟩
  · intro x
    constructor
    · intro hx
      obtain ⟨n, hn, e⟩ := List.mem_map.1 hx
      exact ⟨n, (mem_plain.1 hn).1, e, (mem_plain.1 hn).2⟩
    · rintro ⟨n, hn, e, hs⟩
      exact List.mem_map.2 ⟨n, mem_plain.2 ⟨hn, hs⟩, e⟩
  · have hrel := posPlain v n hn hs
    cases hp : n.parent with
    | none =>
      have e : rel n = at_ n.id := by simp only [rel, hp]
      rw [e] at hrel
      have := OnScreen.top (v := v.applyAll cs) hn hp
      rwa [hrel] at this
    | some p =>
      have e : rel n = ⟨(at_ n.id).x - (box p).x, (at_ n.id).y - (box p).y⟩ := by simp only [rel, hp]
      rw [e] at hrel
      have hpp := (mem_parents h).2 ⟨n, hn, hp⟩
      obtain ⟨m, hm, rfl, hms⟩ := scopeOf p hpp
      have hm' := OnScreen.top (v := v.applyAll cs) hm (hf m hm hms)
      rw [posScope v _ hpp] at hm'
      have := OnScreen.inside hn hp hm'
      rw [hrel] at this
      simp only at this
      have e1 : (box m.id).x + ((at_ n.id).x - (box m.id).x) = (at_ n.id).x := by omega
      have e2 : (box m.id).y + ((at_ n.id).y - (box m.id).y) = (at_ n.id).y := by omega
      rw [e1, e2] at this
      exact this
  · obtain ⟨⟨c, hc, hcp, _⟩, _⟩ := hw m hm hms
    have hpp := (mem_parents h).2 ⟨c, hc, hcp⟩
    have hne : ((b.children m.id).map fun n => at_ n.id) ≠ [] := by
      intro e
      have := List.map_eq_nil_iff.1 e
      exact absurd (mem_children.2 ⟨hc, hcp⟩) (by rw [this]; simp)
    obtain ⟨c1, c2, c3, c4, c5⟩ := bounds_spec o _ hne
    have hpos : ∀ n ∈ b.children m.id, (v.applyAll cs).pos n.id =
        ⟨(at_ n.id).x - (box m.id).x, (at_ n.id).y - (box m.id).y⟩ := by
      intro n hn
      obtain ⟨hn1, hn2⟩ := mem_children.1 hn
      rw [posPlain v n hn1 (inner n hn1 _ hn2)]
      simp only [rel, hn2]
    have hin : ∀ n, n ∈ (b.nodes.filter fun n => n.parent = some m.id) ↔ n ∈ b.children m.id := by
      intro n
      rw [mem_children, List.mem_filter]
      simp
    have ex : ∀ {P : Uid → Prop} {Q : Pos → Prop},
        (∃ p ∈ (b.children m.id).map (fun n => at_ n.id), Q p) →
        (∀ n ∈ b.children m.id, Q (at_ n.id) → P n.id) →
        ∃ x ∈ (b.nodes.filter fun n => n.parent = some m.id).map (·.id), P x := by
      rintro P Q ⟨p, hp, hq⟩ himp
      obtain ⟨n, hn, rfl⟩ := List.mem_map.1 hp
      exact ⟨n.id, List.mem_map.2 ⟨n, (hin n).2 hn, rfl⟩, himp n hn hq⟩
    refine ⟨(box m.id).width, (box m.id).height, sizeScope v _ hpp, ?_, ?_, ?_, ?_, ?_⟩
    · intro x hx
      obtain ⟨n, hn, rfl⟩ := List.mem_map.1 hx
      have hn := (hin n).1 hn
      have := c1 _ (List.mem_map.2 ⟨n, hn, rfl⟩)
      rw [hpos n hn]
      simp only [box] at *
      omega
    · refine ex c2 fun n hn hq => ?_
      rw [hpos n hn]; simp only [box] at *; omega
    · refine ex c3 fun n hn hq => ?_
      rw [hpos n hn]; simp only [box] at *; omega
    · refine ex c4 fun n hn hq => ?_
      rw [hpos n hn]; simp only [box] at *; omega
    · refine ex c5 fun n hn hq => ?_
      rw [hpos n hn]; simp only [box] at *; omega

/-- C131, for diagrams that are drawn in the editor in which no scope is in another and none has lost its
start or its end: the layout succeeds; every node that is not a scope is where dagre puts it on the screen,
given all of them and the edges; and the box of every scope goes around what is in it, with the margins
and no more. Scopes in scopes (`C131_nested_violated`), scopes without a start or an end
(`C131_start_violated`) and edges between scopes (`C131_between_violated`) are missing. -/
theorem C131_layout_partial (o : Opts) (dagre : Dagre) (b : Board) (h : Draws b) (hf : b.Flat) :
    ∃ cs es ids, b.layout o dagre = some cs ∧ AllTold b es ∧
      (∀ x, x ∈ ids ↔ ∃ n ∈ b.nodes, n.id = x ∧ ¬ n.Scope) ∧
      ∀ v : View,
        (∀ n ∈ b.nodes, ¬ n.Scope → OnScreen b (v.applyAll cs) n.id (dagre ids es n.id)) ∧
        ∀ m ∈ b.nodes, m.Scope → Boxed o (v.applyAll cs) m.id
          ((b.nodes.filter fun n => n.parent = some m.id).map (·.id)) :=
  layout_does o dagre b (C122_sound_partial _ _ (.inl rfl) h.edits) hf h.whole

/-! ### Where it is false -/

/-- C131 is false of scopes in scopes: whatever dagre does, the layout throws an error. The position of the
inner one, which dagre is not given, is read. -/
theorem C131_nested_violated (o : Opts) (dagre : Dagre) (b : Board) (h : Sound b) (n : Node)
    (hn : n ∈ b.nodes) (hs : n.Scope) (p : Uid) (hp : n.parent = some p) :
    b.layout o dagre = none := by
  unfold Board.layout
  cases allSome b.dagreEdge (prioritized b.edges) with
  | none => rfl
  | some es =>
    simp only
    rw [allSome_none (a := p) ((mem_parents h).2 ⟨n, hn, hp⟩)]
    rw [allSome_none (a := n) (mem_children.2 ⟨hn, hp⟩) (placed_scope h hn hs)]
    rfl

/-- C131 is false of scopes whose start was removed, if an edge leads to them. -/
theorem C131_start_violated (o : Opts) (dagre : Dagre) (b : Board) (h : Sound b) (e : Wire)
    (he : e ∈ b.edges) (t : Node) (ht : t ∈ b.nodes) (hts : t.Scope) (hid : t.id = e.target)
    (hno : ∀ n ∈ b.nodes, n.parent = some t.id → n.item ≠ .start) : b.layout o dagre = none := by
  have : b.dagreEdge e = none := by
    obtain ⟨s, hs, _, _, e1, _⟩ := h.ends e he
    unfold Board.dagreEdge
    rw [← hid, h.node ht, ← e1, h.node hs]
    simp only
    rw [if_pos ((isScope_iff t).2 hts), inScope_none.2 hno]
    rfl
  unfold Board.layout
  rw [allSome_none (a := e) _ this]
  unfold prioritized
  rw [List.mem_append, List.mem_filter, List.mem_filter]
  cases (e.kind.type == .stream || e.kind.type == .err) <;> simp [he]

/-- C131 is false of edges between scopes: dagre is told of an edge from the scope itself, which is none of
the nodes that it is given. -/
theorem C131_between_violated (b : Board) (h : Sound b) (e : Wire) (he : e.Scopes b) (d : DEdge)
    (hd : b.dagreEdge e = some d) :
    d.source = e.source ∧ ¬ ∃ n ∈ b.nodes, n.id = d.source ∧ ¬ n.Scope := by
  obtain ⟨s, hs, t, ht, e1, e2, hss, hts⟩ := he
  unfold Board.dagreEdge at hd
  rw [← e2, h.node ht, ← e1, h.node hs] at hd
  simp only at hd
  rw [if_pos ((isScope_iff t).2 hts), Option.map_eq_some_iff] at hd
  obtain ⟨m, _, rfl⟩ := hd
  refine ⟨e1, ?_⟩
  rintro ⟨n, hn, hid, hns⟩
  exact hns (id_inj h.ids hn hs hid ▸ hss)

/-- The full claim: whatever is drawn can be laid out. -/
def C131_full (o : Opts) (dagre : Dagre) : Prop :=
  ∀ b, Edits Board.empty b → (b.layout o dagre).isSome

/-- A scope is added, and another in it. -/
def nest : Board := desk1.add (some 2) 5 6 7 "t" newScope

/-- Adding a scope to a diagram keeps everything. -/
theorem keeps_add (b : Board) (parent : Option Uid) (id i1 i2 : Uid) (name : Name) (o : Op) :
    KeepsEnds b (b.add parent id i1 i2 name o) := by
  intro n hn _ _ _ _
  unfold Board.add
  split
  · exact List.mem_append_left _ hn
  · exact hn

theorem nest_draws : Draws nest :=
  .step (.step .empty (.add none 2 3 4 "s" newScope (by decide +kernel) (not_taken (by decide +kernel)))
      (keeps_add _ _ _ _ _ _ _))
    (.add (some 2) 5 6 7 "t" newScope (by decide +kernel) (not_taken (by decide +kernel))) (keeps_add _ _ _ _ _ _ _)

/-- Two clicks make a diagram that no layout is found for, whatever dagre does. -/
theorem C131_violated (o : Opts) (dagre : Dagre) : ¬ C131_full o dagre := by
  intro h
  have := h nest nest_draws.edits
  rw [C131_nested_violated o dagre nest (C122_sound_partial _ _ (.inl rfl) nest_draws.edits)
    ⟨5, some 2, .op ["s"] "t" newScope⟩ (by decide +kernel) ⟨_, _, _, rfl, rfl⟩ 2 rfl] at this
  cases this

/-- The start of a scope that an edge leads to is removed. -/
example (o : Opts) (dagre : Dagre) :
    Edits Board.empty (desk4.remove [3]) ∧ (desk4.remove [3]).layout o dagre = none := by
  have he : Edits Board.empty (desk4.remove [3]) :=
    .more (.more (.more (.more (.more (.none _)
      (.add none 2 3 4 "s" newScope (by decide +kernel) (not_taken (by decide +kernel))))
      (.add (some 2) 5 105 205 "b" newBuffer (by decide +kernel) (not_taken (by decide +kernel))))
      (.add (some 2) 6 106 206 "j" newJoin (by decide +kernel) (not_taken (by decide +kernel))))
      (.connect 0 0 .plain 2 (by decide +kernel))) (.remove [3])
  exact ⟨he, C131_start_violated o dagre _ (C122_sound_partial _ _ (.inl rfl) he)
    ⟨0, 0, .plain, 2, .default, none⟩ (by decide +kernel)
    ⟨2, none, .op [] "s" newScope⟩ (by decide +kernel) ⟨_, _, _, rfl, rfl⟩ rfl (by decide +kernel)⟩

/-- Two scopes, one after the other. -/
def two : Board := (desk1.add none 5 6 7 "t" newScope).connect 0 2 .plain 5

example : Edits Board.empty two ∧ (∃ e ∈ two.edges, e.Scopes two ∧
    two.dagreEdge e = some ⟨2, 6, 2⟩) := by
  refine ⟨.more (.more (.more (.none _)
    (.add none 2 3 4 "s" newScope (by decide +kernel) (not_taken (by decide +kernel))))
    (.add none 5 6 7 "t" newScope (by decide +kernel) (not_taken (by decide +kernel))))
    (.connect 0 2 .plain 5 (by decide +kernel)), ⟨0, 2, .plain, 5, .default, none⟩, by decide +kernel,
    ⟨⟨2, none, .op [] "s" newScope⟩, by decide +kernel, ⟨5, none, .op [] "t" newScope⟩,
      by decide +kernel, rfl, rfl, ⟨_, _, _, rfl, rfl⟩, ⟨_, _, _, rfl, rfl⟩⟩, by decide +kernel⟩

/-- A column, as dagre makes one. -/
def column : Dagre := fun ids _ x => ⟨10, 100 * (ids.idxOf x : Int)⟩

/-- The hypotheses of `C131_layout_partial` are met by a scope with a buffer and a join in it. -/
example : Draws desk3 ∧ desk3.Flat ∧
    desk3.layout layoutOptions column = some
      [.position 0 ⟨10, 0⟩, .position 1 ⟨10, 100⟩, .position 3 ⟨75, 50⟩, .position 4 ⟨75, 150⟩,
       .position 5 ⟨75, 250⟩, .position 6 ⟨75, 350⟩, .position 2 ⟨-65, 150⟩,
       .dimensions 2 350 450] := by
  refine ⟨.step (.step (.step .empty
    (.add none 2 3 4 "s" newScope (by decide +kernel) (not_taken (by decide +kernel))) (keeps_add _ _ _ _ _ _ _))
    (.add (some 2) 5 105 205 "b" newBuffer (by decide +kernel) (not_taken (by decide +kernel)))
      (keeps_add _ _ _ _ _ _ _))
    (.add (some 2) 6 106 206 "j" newJoin (by decide +kernel) (not_taken (by decide +kernel)))
      (keeps_add _ _ _ _ _ _ _), ?_, by decide +kernel⟩
  intro n hn h
  have := List.all_eq_true.1 (show desk3.nodes.all (fun n => !n.isScope || n.parent == none) = true by
    decide +kernel) n hn
  rw [(isScope_iff n).2 h] at this
  simpa using this

/-- What dagre is told when there are edges: the one to the scope leads to the start of it. -/
example : allSome desk6.dagreEdge (prioritized desk6.edges) =
    some [⟨0, 3, 2⟩, ⟨3, 5, 1⟩, ⟨5, 6, 1⟩] := by decide +kernel

end Verif.Editor
