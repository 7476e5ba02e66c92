import Verif.Editor.Move
import Verif.Editor.LayoutProps
/-
C132: moving nodes in scopes.
-/
namespace Verif.Editor

theorem apply_pos_not {l : List Change} {id : Uid} (h : ∀ q, .position id q ∉ l) (v : View) :
    (v.applyAll l).pos id = v.pos id := by
  induction l generalizing v with
  | nil => rfl
  | cons c l ih =>
    have hr := ih (fun q hq => h q (List.mem_cons_of_mem _ hq)) (v.apply c)
    refine hr.trans ?_
    cases c with
    | position i q =>
      have : id ≠ i := fun e => h q (e ▸ List.mem_cons_self)
      simp [View.apply, this]
    | dimensions i w h' => rfl

theorem apply_size_not {l : List Change} {id : Uid} (h : ∀ w h', .dimensions id w h' ∉ l) (v : View) :
    (v.applyAll l).size id = v.size id := by
  induction l generalizing v with
  | nil => rfl
  | cons c l ih =>
    have hr := ih (fun w h' hq => h w h' (List.mem_cons_of_mem _ hq)) (v.apply c)
    refine hr.trans ?_
    cases c with
    | dimensions i w h' =>
      have : id ≠ i := fun e => h w h' (e ▸ List.mem_cons_self)
      simp [View.apply, this]
    | position i q => rfl

/-- Nothing is in itself. -/
theorem Sound.not_self {b : Board} (h : Sound b) {n : Node} (hn : n ∈ b.nodes) {p : Uid}
    (hp : n.parent = some p) : n.id ≠ p := by
  intro e
  obtain ⟨m, hm, e', ns, name, o, hi, _, hns⟩ := h.inside n hn p hp
  have : m = n := id_inj h.ids hm hn (e'.trans e.symm)
  subst this
  have := congrArg List.length (hns ns name o hi)
  simp at this

/-- What is done when a node in a scope is moved. -/
theorem handle_one {o : Opts} {b : Board} {v : View} (h : Sound b) {n : Node} (hn : n ∈ b.nodes)
    {p : Uid} (hp : n.parent = some p) {w k : Int} (hsize : v.size p = some (w, k)) (q : Pos) :
    let c := b.around o v p n.id q
    let v' := b.handle o v [.position n.id q]
    let far := tooFar o c (some (w, k)) = true
    v'.pos n.id = q ∧
    (far → v'.pos p = ⟨(v.pos p).x + c.x, (v.pos p).y + c.y⟩ ∧ v'.size p = some (c.width, c.height)) ∧
    (¬ far → v'.pos p = v.pos p ∧ v'.size p = v.size p) ∧
    (∀ m ∈ b.nodes, m.parent = some p → m.id ≠ n.id →
      (far → v'.pos m.id = ⟨(v.pos m.id).x - c.x, (v.pos m.id).y - c.y⟩) ∧
      (¬ far → v'.pos m.id = v.pos m.id)) ∧
    ∀ m ∈ b.nodes, m.parent ≠ some p → m.id ≠ p →
      v'.pos m.id = v.pos m.id ∧ v'.size m.id = v.size m.id := by
  intro c v' far
  have hnp : n.id ≠ p := h.not_self hn hp
  obtain ⟨s, hs, hsp, _⟩ := h.inside n hn p hp
  have hnode : b.node p = some s := by rw [← hsp]; exact h.node hs
  let rest : List Change := ((b.children p).filter fun m => m.id != n.id).map fun m =>
    .position m.id ⟨(v.pos m.id).x - c.x, (v.pos m.id).y - c.y⟩
  have mrest : ∀ x r, Change.position x r ∈ rest ↔ ∃ m ∈ b.nodes, m.parent = some p ∧ m.id ≠ n.id ∧
      m.id = x ∧ r = ⟨(v.pos m.id).x - c.x, (v.pos m.id).y - c.y⟩ := by
    intro x r
    simp only [rest, List.mem_map, List.mem_filter, mem_children, Change.position.injEq]
    constructor
    · rintro ⟨m, ⟨⟨h1, h2⟩, h3⟩, h4, h5⟩
      exact ⟨m, h1, h2, by simpa using h3, h4, h5.symm⟩
    · rintro ⟨m, h1, h2, h3, h4, h5⟩
      exact ⟨m, ⟨⟨h1, h2⟩, by simpa using h3⟩, h4, h5.symm⟩
  have drest : ∀ x a d, Change.dimensions x a d ∉ rest := by
    intro x a d hm
    obtain ⟨m, _, e⟩ := List.mem_map.1 hm
    cases e
  have hfollow : b.follow o v (.position n.id q) =
      if (newBox o c (v.pos p) (v.size p)).x != (v.pos p).x ||
          (newBox o c (v.pos p) (v.size p)).y != (v.pos p).y ||
          some ((newBox o c (v.pos p) (v.size p)).width, (newBox o c (v.pos p) (v.size p)).height) !=
            v.size p then
        [.position p ⟨(newBox o c (v.pos p) (v.size p)).x, (newBox o c (v.pos p) (v.size p)).y⟩,
          .dimensions p (newBox o c (v.pos p) (v.size p)).width
            (newBox o c (v.pos p) (v.size p)).height] ++ rest
      else [] := by
    simp only [Board.follow, h.node hn, hp, hnode, Option.isNone_some, Bool.false_eq_true, if_false]
    rfl
  have hv : v' = v.applyAll (.position n.id q :: b.follow o v (.position n.id q)) := by
    simp only [v', Board.handle, List.flatMap_cons, List.flatMap_nil, List.append_nil,
      List.singleton_append]
  by_cases hf : far
  · have hbox : newBox o c (v.pos p) (v.size p) =
        ⟨(v.pos p).x + c.x, (v.pos p).y + c.y, c.width, c.height⟩ := by
      unfold newBox
      rw [hsize, if_pos hf]
    by_cases hsame : (c.x = 0 ∧ c.y = 0) ∧ v.size p = some (c.width, c.height)
    · -- nothing changes
      have hnil : b.follow o v (.position n.id q) = [] := by
        rw [hfollow, hbox, if_neg]
        simp [hsame.1.1, hsame.1.2, hsame.2]
      rw [hnil] at hv
      have keep : ∀ x, x ≠ n.id → v'.pos x = v.pos x := by
        intro x hx
        rw [hv]
        refine apply_pos_not (fun r hr => ?_) v
        simp only [List.mem_singleton, Change.position.injEq] at hr
        exact hx hr.1
      have keeps : ∀ x, v'.size x = v.size x := by
        intro x; rw [hv]
        exact apply_size_not (fun a d hr => by simp at hr) v
      refine ⟨?_, fun _ => ⟨?_, ?_⟩, fun x => absurd hf x, fun m hm hmp hmn => ⟨fun _ => ?_, fun x => absurd hf x⟩,
        fun m hm hmp hmx => ⟨keep _ ?_, keeps _⟩⟩
      · rw [hv]
        exact apply_pos List.mem_cons_self (fun r hr => by simpa using hr) v
      · rw [keep p hnp.symm, hsame.1.1, hsame.1.2]; simp
      · rw [keeps]; exact hsame.2
      · rw [keep _ hmn, hsame.1.1, hsame.1.2]; simp
      · rintro e
        exact hmp (id_inj h.ids hm hn e ▸ hp)
    · have hcons : b.follow o v (.position n.id q) =
          [.position p ⟨(v.pos p).x + c.x, (v.pos p).y + c.y⟩, .dimensions p c.width c.height] ++
            rest := by
        rw [hfollow, hbox, if_pos]
        simp only [Bool.or_eq_true, bne_iff_ne, ne_eq]
        by_cases hx : c.x = 0
        · by_cases hy : c.y = 0
          · exact Or.inr fun e => hsame ⟨⟨hx, hy⟩, e.symm⟩
          · exact Or.inl (Or.inr (by omega))
        · exact Or.inl (Or.inl (by omega))
      rw [hcons] at hv
      have inl : ∀ x r, Change.position x r ∈ Change.position n.id q ::
          ([.position p ⟨(v.pos p).x + c.x, (v.pos p).y + c.y⟩, .dimensions p c.width c.height] ++ rest) →
          (x = n.id ∧ r = q) ∨ (x = p ∧ r = ⟨(v.pos p).x + c.x, (v.pos p).y + c.y⟩) ∨
          Change.position x r ∈ rest := by
        intro x r hr
        simp only [List.mem_cons, List.mem_append, Change.position.injEq, reduceCtorEq,
          List.not_mem_nil, or_false] at hr
        exact hr
      refine ⟨?_, fun _ => ⟨?_, ?_⟩, fun x => absurd hf x,
        fun m hm hmp hmn => ⟨fun _ => ?_, fun x => absurd hf x⟩, fun m hm hmp hmx => ⟨?_, ?_⟩⟩
      · rw [hv]
        refine apply_pos List.mem_cons_self (fun r hr => ?_) v
        rcases inl _ _ hr with ⟨_, e⟩ | ⟨e, _⟩ | hr
        · exact e
        · exact absurd e hnp
        · obtain ⟨m, _, _, h3, h4, _⟩ := (mrest _ _).1 hr
          exact absurd h4 h3
      · rw [hv]
        refine apply_pos (List.mem_cons_of_mem _ List.mem_cons_self) (fun r hr => ?_) v
        rcases inl _ _ hr with ⟨e, _⟩ | ⟨_, e⟩ | hr
        · exact absurd e.symm hnp
        · exact e
        · obtain ⟨m, h1, h2, _, h4, _⟩ := (mrest _ _).1 hr
          exact absurd h4 (h.not_self h1 h2)
      · rw [hv]
        refine apply_size (w := c.width) (h := c.height) (by simp) (fun a d hr => ?_) v
        simp only [List.mem_cons, List.mem_append, Change.dimensions.injEq, reduceCtorEq, false_or,
          List.not_mem_nil, or_false] at hr
        rcases hr with hr | hr
        · exact hr.2
        · exact absurd hr (drest _ _ _)
      · rw [hv]
        have hm' : Change.position m.id ⟨(v.pos m.id).x - c.x, (v.pos m.id).y - c.y⟩ ∈ rest :=
          (mrest _ _).2 ⟨m, hm, hmp, hmn, rfl, rfl⟩
        refine apply_pos (List.mem_cons_of_mem _ (List.mem_append_right _ hm')) (fun r hr => ?_) v
        rcases inl _ _ hr with ⟨e, _⟩ | ⟨e, _⟩ | hr
        · exact absurd e hmn
        · exact absurd e (h.not_self hm hmp)
        · obtain ⟨m', _, _, _, h4, h5⟩ := (mrest _ _).1 hr
          rw [h5, h4]
      · rw [hv]
        refine apply_pos_not (fun r hr => ?_) v
        rcases inl _ _ hr with ⟨e, _⟩ | ⟨e, _⟩ | hr
        · exact hmp (id_inj h.ids hm hn e ▸ hp)
        · exact hmx e
        · obtain ⟨m', h1, h2, _, h4, _⟩ := (mrest _ _).1 hr
          exact hmp (id_inj h.ids h1 hm h4 ▸ h2)
      · rw [hv]
        refine apply_size_not (fun a d hr => ?_) v
        simp only [List.mem_cons, List.mem_append, Change.dimensions.injEq, reduceCtorEq, false_or,
          List.not_mem_nil, or_false] at hr
        rcases hr with hr | hr
        · exact hmx hr.1
        · exact drest _ _ _ hr
  · have hbox : newBox o c (v.pos p) (v.size p) = ⟨(v.pos p).x, (v.pos p).y, w, k⟩ := by
      unfold newBox
      rw [hsize, if_neg hf]
    have hnil : b.follow o v (.position n.id q) = [] := by
      rw [hfollow, hbox, if_neg]
      simp [hsize]
    rw [hnil] at hv
    have keep : ∀ x, x ≠ n.id → v'.pos x = v.pos x := by
      intro x hx
      rw [hv]
      refine apply_pos_not (fun r hr => ?_) v
      simp only [List.mem_singleton, Change.position.injEq] at hr
      exact hx hr.1
    have keeps : ∀ x, v'.size x = v.size x := by
      intro x; rw [hv]
      exact apply_size_not (fun a d hr => by simp at hr) v
    refine ⟨?_, fun x => absurd x hf, fun _ => ⟨keep p hnp.symm, keeps p⟩,
      fun m hm hmp hmn => ⟨fun x => absurd x hf, fun _ => keep _ hmn⟩,
      fun m hm hmp hmx => ⟨keep _ ?_, keeps _⟩⟩
    · rw [hv]
      exact apply_pos List.mem_cons_self (fun r hr => by simpa using hr) v
    · intro e
      exact hmp (id_inj h.ids hm hn e ▸ hp)

/-! ### On the screen -/

/-- Where a node is on the screen is unique. -/
theorem OnScreen.unique {b : Board} (h : Sound b) {v : View} {x : Uid} {q r : Pos}
    (hq : OnScreen b v x q) (hr : OnScreen b v x r) : q = r := by
  induction hq generalizing r with
  | @top n hn hp =>
    generalize e : n.id = x at hr
    cases hr with
    | top hn' hp' => rfl
    | @inside m p' q' hm hp' h' =>
      have := id_inj h.ids hn hm e
      subst this
      rw [hp] at hp'; cases hp'
  | @inside n p q hn hp h' ih =>
    generalize e : n.id = x at hr
    cases hr with
    | @top m hm hp' =>
      have := id_inj h.ids hn hm e
      subst this
      rw [hp] at hp'; cases hp'
    | @inside m p' q' hm hp' h'' =>
      have := id_inj h.ids hn hm e
      subst this
      rw [hp] at hp'; cases hp'
      rw [ih h'']

/-- Inner operations have longer namespaces. -/
theorem within_rank {b : Board} (h : Sound b) {y : Uid} {x : Uid} (hw : Within b [y] x) :
    (x = y ∨ ∃ n ∈ b.nodes, n.id = y ∧ n.Scope) ∧
    ∀ n ∈ b.nodes, n.id = x → ∀ m ∈ b.nodes, m.id = y → ∀ ns a o ns' a' o',
      n.item = .op ns a o → m.item = .op ns' a' o' → ns'.length ≤ ns.length := by
  induction hw with
  | @self x hx =>
    have hx : x = y := by simpa using hx
    subst hx
    refine ⟨.inl rfl, fun n hn e m hm e' ns a o ns' a' o' i1 i2 => ?_⟩
    have := id_inj h.ids hn hm (e.trans e'.symm)
    subst this
    rw [i1] at i2; cases i2
    exact Nat.le_refl _
  | @inside n p hn hp _ ih =>
    obtain ⟨s, hs, hsp, ns1, a1, o1, hi, hk, hns⟩ := h.inside n hn p hp
    refine ⟨.inr ?_, fun n' hn' e m hm e' ns a o ns' a' o' i1 i2 => ?_⟩
    · rcases ih.1 with e | e
      · exact ⟨s, hs, hsp.trans e, _, _, _, hi, hk⟩
      · exact e
    · have := id_inj h.ids hn' hn e
      subst this
      have h1 := ih.2 s hs hsp m hm e' _ _ _ _ _ _ hi i2
      have h2 := hns _ _ _ i1
      rw [h2, List.length_append]
      exact Nat.le_add_right_of_le h1

/-- What a node is in is not in that node. -/
theorem Sound.not_within {b : Board} (h : Sound b) {n : Node} (hn : n ∈ b.nodes) {p : Uid}
    (hp : n.parent = some p) : ¬ Within b [n.id] p := by
  intro hw
  obtain ⟨s, hs, hsp, ns, a, o, hi, _, hns⟩ := h.inside n hn p hp
  rcases (within_rank h hw).1 with e | ⟨m, hm, e, ns', a', o', hi', _⟩
  · exact h.not_self hn hp e.symm
  · have := id_inj h.ids hm hn e
    subst this
    have h1 := (within_rank h hw).2 s hs hsp m hm rfl _ _ _ _ _ _ hi hi'
    have h2 := congrArg List.length (hns _ _ _ hi')
    simp at h2
    omega

/-- What is not in the node that is moved stays where it is on the screen, but for the scope, which moves. -/
theorem handle_screen {o : Opts} {b : Board} {v : View} (h : Sound b) {n : Node} (hn : n ∈ b.nodes)
    {p : Uid} (hp : n.parent = some p) {w k : Int} (hsize : v.size p = some (w, k)) (q : Pos)
    {x : Uid} {r : Pos} (hx : OnScreen b v x r) (hw : ¬ Within b [n.id] x) :
    let v' := b.handle o v [.position n.id q]
    (x ≠ p → OnScreen b v' x r) ∧
    (x = p → OnScreen b v' x ⟨r.x + ((v'.pos p).x - (v.pos p).x), r.y + ((v'.pos p).y - (v.pos p).y)⟩) := by
  obtain ⟨_, d2, d3, d4, d5⟩ := handle_one (o := o) h hn hp hsize q
  intro v'
  induction hx with
  | @top m hm hmp =>
    have hs := OnScreen.top (v := v') hm hmp
    refine ⟨fun hxp => ?_, fun hxp => ?_⟩
    · rw [(d5 m hm (by rw [hmp]; simp) hxp).1] at hs
      exact hs
    · rw [hxp] at hs ⊢
      have e : (⟨(v.pos p).x + ((v'.pos p).x - (v.pos p).x),
          (v.pos p).y + ((v'.pos p).y - (v.pos p).y)⟩ : Pos) = v'.pos p := by
        have e1 : (v.pos p).x + ((v'.pos p).x - (v.pos p).x) = (v'.pos p).x := by omega
        have e2 : (v.pos p).y + ((v'.pos p).y - (v.pos p).y) = (v'.pos p).y := by omega
        rw [e1, e2]
      rw [e]
      exact hs
  | @inside m t r hm hmt _ ih =>
    have ih := ih fun hi => hw (.inside hm hmt hi)
    have hmn : m.id ≠ n.id := fun e => hw (.self (by simp [e]))
    by_cases htp : t = p
    · subst htp
      have hmt' := h.not_self hm hmt
      refine ⟨fun _ => ?_, fun e => absurd e hmt'⟩
      have hs := OnScreen.inside hm hmt (ih.2 rfl)
      by_cases hf : tooFar o (b.around o v t n.id q) (some (w, k)) = true
      · have e1 : v'.pos m.id = _ := (d4 m hm hmt hmn).1 hf
        have e2 : v'.pos t = _ := (d2 hf).1
        rw [e1, e2] at hs
        refine cast (congrArg (OnScreen b v' m.id) ?_) hs
        simp only [Pos.mk.injEq]
        omega
      · have e1 : v'.pos m.id = _ := (d4 m hm hmt hmn).2 hf
        have e2 : v'.pos t = _ := (d3 hf).1
        rw [e1, e2] at hs
        refine cast (congrArg (OnScreen b v' m.id) ?_) hs
        simp only [Pos.mk.injEq]
        omega
    · have hs := OnScreen.inside hm hmt (ih.1 htp)
      refine ⟨fun hxp => ?_, fun hxp => ?_⟩
      · have e1 : v'.pos m.id = _ := (d5 m hm (by rw [hmt]; simpa using htp) hxp).1
        rw [e1] at hs
        exact hs
      · refine cast (congrArg (OnScreen b v' m.id) ?_) hs
        rw [hxp]
        simp only [Pos.mk.injEq]
        omega

/-! ### The property -/

/-- C132, the part that holds of the nodes that are not moved: when a node in a scope is moved, whatever is
not in that node stays where it is on the screen, but for the scope itself, also when the scope has to
move. -/
theorem C132_others_stay (o : Opts) (b : Board) (v : View) (h : Edits Board.empty b) (n : Node)
    (hn : n ∈ b.nodes) (p : Uid) (hp : n.parent = some p) (w k : Int) (hsize : v.size p = some (w, k))
    (q : Pos) (x : Uid) (hxp : x ≠ p) (hx : ¬ Within b [n.id] x) (r : Pos) (hr : OnScreen b v x r) :
    OnScreen b (b.handle o v [.position n.id q]) x r :=
  (handle_screen (C122_sound_partial _ _ (.inl rfl) h) hn hp hsize q hr hx).1 hxp

/-- C132, the node that is moved: it is where it was put exactly when the scope did not have to move.
Otherwise it is off by as much as the scope moved. -/
theorem C132_moved_partial (o : Opts) (b : Board) (v : View) (h : Edits Board.empty b) (n : Node)
    (hn : n ∈ b.nodes) (p : Uid) (hp : n.parent = some p) (w k : Int) (hsize : v.size p = some (w, k))
    (q r : Pos) (hr : OnScreen b v p r) :
    let v' := b.handle o v [.position n.id q]
    (OnScreen b v' n.id ⟨r.x + q.x, r.y + q.y⟩ ↔ v'.pos p = v.pos p) ∧
    OnScreen b v' n.id ⟨r.x + q.x + ((v'.pos p).x - (v.pos p).x),
      r.y + q.y + ((v'.pos p).y - (v.pos p).y)⟩ := by
  have hs := C122_sound_partial _ _ (.inl rfl) h
  have d1 := (handle_one (o := o) hs hn hp hsize q).1
  intro v'
  have hscope := (handle_screen (o := o) hs hn hp hsize q hr (hs.not_within hn hp)).2 rfl
  have key : OnScreen b v' n.id ⟨r.x + q.x + ((v'.pos p).x - (v.pos p).x),
      r.y + q.y + ((v'.pos p).y - (v.pos p).y)⟩ := by
    have e := OnScreen.inside hn hp hscope
    rw [d1] at e
    refine cast (congrArg (OnScreen b v' n.id) ?_) e
    simp only [Pos.mk.injEq, v']
    omega
  refine ⟨⟨fun hq => ?_, fun e => ?_⟩, key⟩
  · have := OnScreen.unique hs hq key
    simp only [Pos.mk.injEq] at this
    generalize hA : v'.pos p = A at *
    generalize hB : v.pos p = B at *
    cases A; cases B
    simp only [Pos.mk.injEq] at this ⊢
    omega
  · rw [e] at key
    refine cast (congrArg (OnScreen b v' n.id) ?_) key
    simp only [Pos.mk.injEq]
    omega

/-- C132, the box: what was not moved does not stick out of the scope to the left or above, and by no more
than the margin to the right or below. If the scope moved or its size changed, they are in it with the whole
margin. -/
theorem C132_box_partial (o : Opts) (b : Board) (v : View) (h : Edits Board.empty b) (n : Node)
    (hn : n ∈ b.nodes) (p : Uid) (hp : n.parent = some p) (w k : Int) (hsize : v.size p = some (w, k))
    (hw : 0 < w) (hk : 0 < k) (hlr : 0 ≤ o.leftRight) (htb : 0 ≤ o.topBottom) (q : Pos) (m : Node)
    (hm : m ∈ b.nodes) (hmp : m.parent = some p) (hmn : m.id ≠ n.id) :
    let v' := b.handle o v [.position n.id q]
    ∃ w' k', v'.size p = some (w', k') ∧
      0 ≤ (v'.pos m.id).x ∧ (v'.pos m.id).x + o.nodeWidth ≤ w' + o.leftRight ∧
      0 ≤ (v'.pos m.id).y ∧ (v'.pos m.id).y + o.nodeHeight ≤ k' + o.topBottom ∧
      (v'.pos p ≠ v.pos p ∨ v'.size p ≠ v.size p →
        o.leftRight ≤ (v'.pos m.id).x ∧ (v'.pos m.id).x + o.nodeWidth + o.leftRight ≤ w' ∧
        o.topBottom ≤ (v'.pos m.id).y ∧ (v'.pos m.id).y + o.nodeHeight + o.topBottom ≤ k') := by
  have hs := C122_sound_partial _ _ (.inl rfl) h
  obtain ⟨_, d2, d3, d4, _⟩ := handle_one (o := o) hs hn hp hsize q
  intro v'
  have hin : v.pos m.id ∈ ((b.children p).filter fun x => x.id != n.id).map (fun x => v.pos x.id) ++ [q] :=
    List.mem_append_left _ (List.mem_map.2 ⟨m, List.mem_filter.2 ⟨mem_children.2 ⟨hm, hmp⟩,
      by simpa using hmn⟩, rfl⟩)
  have hb := (bounds_spec o _ (List.ne_nil_of_mem hin)).1 _ hin
  change (b.around o v p n.id q).x + _ ≤ _ ∧ _ ≤ (b.around o v p n.id q).x +
    (b.around o v p n.id q).width ∧ (b.around o v p n.id q).y + _ ≤ _ ∧
    _ ≤ (b.around o v p n.id q).y + (b.around o v p n.id q).height at hb
  by_cases hf : tooFar o (b.around o v p n.id q) (some (w, k)) = true
  · have e1 : v'.pos m.id = _ := (d4 m hm hmp hmn).1 hf
    refine ⟨_, _, (d2 hf).2, ?_⟩
    rw [e1]
    dsimp only
    refine ⟨by omega, by omega, by omega, by omega, fun _ => ⟨by omega, by omega, by omega, by omega⟩⟩
  · have e1 : v'.pos m.id = _ := (d4 m hm hmp hmn).2 hf
    refine ⟨w, k, (d3 hf).2.trans hsize, ?_⟩
    rw [e1]
    have hw' : (w != 0) = true := by simp; omega
    have hk' : (k != 0) = true := by simp; omega
    simp only [tooFar, hw', hk', Bool.true_and, Bool.or_eq_true, decide_eq_true_eq, not_or] at hf
    refine ⟨by omega, by omega, by omega, by omega, fun hc => ?_⟩
    rcases hc with hc | hc
    · exact absurd (d3 (by simpa [tooFar, hw', hk'] using hf)).1 hc
    · exact absurd (d3 (by simpa [tooFar, hw', hk'] using hf)).2 hc

/-- C132, the box and the node that is moved: at the place where it was put there is room for it, up to the
margin. If the scope moved or its size changed, then with the node at that place the box goes around all
that is in the scope, with the margins and no more. That the node is not at that place is
`C132_moved_violated`. -/
theorem C132_room_partial (o : Opts) (b : Board) (v : View) (h : Edits Board.empty b) (n : Node)
    (hn : n ∈ b.nodes) (p : Uid) (hp : n.parent = some p) (w k : Int) (hsize : v.size p = some (w, k))
    (hw : 0 < w) (hk : 0 < k) (hlr : 0 ≤ o.leftRight) (htb : 0 ≤ o.topBottom) (q : Pos) :
    let v' := b.handle o v [.position n.id q]
    let q' : Pos := ⟨q.x - ((v'.pos p).x - (v.pos p).x), q.y - ((v'.pos p).y - (v.pos p).y)⟩
    (∃ w' k', v'.size p = some (w', k') ∧ 0 ≤ q'.x ∧ q'.x + o.nodeWidth ≤ w' + o.leftRight ∧
      0 ≤ q'.y ∧ q'.y + o.nodeHeight ≤ k' + o.topBottom) ∧
    (v'.pos p ≠ v.pos p ∨ v'.size p ≠ v.size p →
      Boxed o ⟨fun x => if x = n.id then q' else v'.pos x, v'.size⟩ p
        ((b.nodes.filter fun m => m.parent = some p).map (·.id))) := by
  have hs := C122_sound_partial _ _ (.inl rfl) h
  obtain ⟨_, d2, d3, d4, _⟩ := handle_one (o := o) hs hn hp hsize q
  intro v' q'
  have hspec := bounds_spec o
    (((b.children p).filter fun x => x.id != n.id).map (fun x => v.pos x.id) ++ [q]) (by simp)
  have hb : bounds o (((b.children p).filter fun x => x.id != n.id).map (fun x => v.pos x.id) ++ [q]) =
    b.around o v p n.id q := rfl
  rw [hb] at hspec
  clear hb
  generalize hc : b.around o v p n.id q = c at *
  have hq := hspec.1 q (by simp)
  by_cases hf : tooFar o c (some (w, k)) = true
  · have e2 : v'.pos p = _ := (d2 hf).1
    have eq' : q' = ⟨q.x - c.x, q.y - c.y⟩ := by
      simp only [q', e2, Pos.mk.injEq]
      omega
    rw [eq']
    refine ⟨⟨_, _, (d2 hf).2, ?_, ?_, ?_, ?_⟩, fun _ => ⟨⟨_, _, (d2 hf).2, ?_⟩⟩⟩
    · dsimp only; omega
    · dsimp only; omega
    · dsimp only; omega
    · dsimp only; omega
    · -- every place is one of those that the bounds were made of, shifted
      have mem : ∀ x, x ∈ (b.nodes.filter fun m => m.parent = some p).map (·.id) ↔
          ∃ m ∈ b.nodes, m.parent = some p ∧ m.id = x := by
        intro x
        simp [and_assoc]
      have there : ∀ x ∈ (b.nodes.filter fun m => m.parent = some p).map (·.id),
          ∃ a ∈ ((b.children p).filter fun x => x.id != n.id).map (fun x => v.pos x.id) ++ [q],
            (if x = n.id then (⟨q.x - c.x, q.y - c.y⟩ : Pos) else v'.pos x) = ⟨a.x - c.x, a.y - c.y⟩ := by
        intro x hx
        obtain ⟨m, hm, hmp, rfl⟩ := (mem x).1 hx
        by_cases hmn : m.id = n.id
        · exact ⟨q, by simp, by rw [if_pos hmn]⟩
        · refine ⟨v.pos m.id, List.mem_append_left _ (List.mem_map.2 ⟨m, List.mem_filter.2
            ⟨mem_children.2 ⟨hm, hmp⟩, by simpa using hmn⟩, rfl⟩), ?_⟩
          rw [if_neg hmn]
          exact (d4 m hm hmp hmn).1 hf
      have back : ∀ a ∈ ((b.children p).filter fun x => x.id != n.id).map (fun x => v.pos x.id) ++ [q],
          ∃ x ∈ (b.nodes.filter fun m => m.parent = some p).map (·.id),
            (if x = n.id then (⟨q.x - c.x, q.y - c.y⟩ : Pos) else v'.pos x) = ⟨a.x - c.x, a.y - c.y⟩ := by
        intro a ha
        rcases List.mem_append.1 ha with ha | ha
        · obtain ⟨m, hm, rfl⟩ := List.mem_map.1 ha
          obtain ⟨hm, hmn⟩ := List.mem_filter.1 hm
          obtain ⟨hm, hmp⟩ := mem_children.1 hm
          have hmn : m.id ≠ n.id := by simpa using hmn
          refine ⟨m.id, (mem _).2 ⟨m, hm, hmp, rfl⟩, ?_⟩
          rw [if_neg hmn]
          exact (d4 m hm hmp hmn).1 hf
        · have : a = q := by simpa using ha
          subst this
          exact ⟨n.id, (mem _).2 ⟨n, hn, hp, rfl⟩, by rw [if_pos rfl]⟩
      obtain ⟨s1, ⟨a2, m2, s2⟩, ⟨a3, m3, s3⟩, ⟨a4, m4, s4⟩, ⟨a5, m5, s5⟩⟩ := hspec
      refine ⟨fun x hx => ?_, ?_, ?_, ?_, ?_⟩
      · obtain ⟨a, ha, e⟩ := there x hx
        have := s1 a ha
        dsimp only
        rw [e]
        dsimp only
        omega
      · obtain ⟨x, hx, e⟩ := back a2 m2
        exact ⟨x, hx, by dsimp only; rw [e]; dsimp only; omega⟩
      · obtain ⟨x, hx, e⟩ := back a3 m3
        exact ⟨x, hx, by dsimp only; rw [e]; dsimp only; omega⟩
      · obtain ⟨x, hx, e⟩ := back a4 m4
        exact ⟨x, hx, by dsimp only; rw [e]; dsimp only; omega⟩
      · obtain ⟨x, hx, e⟩ := back a5 m5
        exact ⟨x, hx, by dsimp only; rw [e]; dsimp only; omega⟩
  · have e2 : v'.pos p = _ := (d3 hf).1
    have e3 : v'.size p = _ := (d3 hf).2
    have eq' : q' = q := by
      simp only [q', e2]
      cases q
      simp
    rw [eq']
    refine ⟨⟨w, k, e3.trans hsize, ?_⟩, fun hch => ?_⟩
    · have hw' : (w != 0) = true := by simp; omega
      have hk' : (k != 0) = true := by simp; omega
      simp only [tooFar, hw', hk', Bool.true_and, Bool.or_eq_true, decide_eq_true_eq, not_or] at hf
      omega
    · rcases hch with hch | hch
      · exact absurd e2 hch
      · exact absurd e3 hch

/-- C132, the button of the layout: without scopes, every node is where the library put it. -/
theorem C132_button_partial (o : Opts) (dagre : Dagre) (b : Board) (h : Draws b)
    (hf : ∀ n ∈ b.nodes, ¬ n.Scope) (v : View) :
    ∃ cs es ids, b.layout o dagre = some cs ∧ AllTold b es ∧
      (∀ x, x ∈ ids ↔ ∃ n ∈ b.nodes, n.id = x) ∧
      ∀ n ∈ b.nodes, OnScreen b (b.handle o v cs) n.id (dagre ids es n.id) := by
  have hs := C122_sound_partial _ _ (.inl rfl) h.edits
  obtain ⟨cs, es, ids, h1, h2, h3, h4⟩ := C131_layout_partial o dagre b h fun n hn hsc =>
    absurd hsc (hf n hn)
  have hnil : ∀ c, b.follow o v c = [] := by
    intro c
    cases c with
    | dimensions i w k => rfl
    | position i q =>
      cases hi : b.node i with
      | none => simp [Board.follow, hi]
      | some n =>
        have hn : n ∈ b.nodes := List.mem_of_find?_eq_some hi
        cases hp : n.parent with
        | none => simp [Board.follow, hi, hp]
        | some p =>
          obtain ⟨m, hm, _, ns, a, op, hi, hk, _⟩ := hs.inside n hn p hp
          exact absurd ⟨ns, a, op, hi, hk⟩ (hf m hm)
  have hall : b.handle o v cs = v.applyAll cs := by
    have : cs.flatMap (b.follow o v) = [] := by
      rw [List.flatMap_eq_nil_iff]
      exact fun c _ => hnil c
    rw [Board.handle, this, List.append_nil]
  refine ⟨cs, es, ids, h1, h2, fun x => ?_, fun n hn => ?_⟩
  · rw [h3]
    exact ⟨fun ⟨n, a, c, _⟩ => ⟨n, a, c⟩, fun ⟨n, a, c⟩ => ⟨n, a, c, hf n a⟩⟩
  · rw [hall]
    exact (h4 v).1 n hn (hf n hn)

/-! ### Where it is false -/

/-- A scope as it is when a buffer and a join were added below its end: everything is in a column. -/
def shown : View :=
  ⟨fun x => if x = 2 then ⟨1000, 0⟩ else if x = 3 then ⟨75, 50⟩ else if x = 4 then ⟨75, 250⟩
    else if x = 5 then ⟨75, 350⟩ else if x = 6 then ⟨75, 450⟩ else ⟨0, 0⟩,
   fun x => if x = 2 then some (350, 550) else none⟩

theorem desk3_draws : Draws desk3 :=
  .step (.step (.step .empty
    (.add none 2 3 4 "s" newScope (by decide +kernel) (not_taken (by decide +kernel))) (keeps_add _ _ _ _ _ _ _))
    (.add (some 2) 5 105 205 "b" newBuffer (by decide +kernel) (not_taken (by decide +kernel)))
      (keeps_add _ _ _ _ _ _ _))
    (.add (some 2) 6 106 206 "j" newJoin (by decide +kernel) (not_taken (by decide +kernel)))
      (keeps_add _ _ _ _ _ _ _)

/-- C132 in full, for the options that are used: a node that is moved is where it was put, all the others
stay in place, and all of them are in the scope. And the button puts every node where the library did. -/
def C132_full : Prop :=
  (∀ (b : Board) (v : View), Edits Board.empty b → ∀ n ∈ b.nodes, ∀ p, n.parent = some p →
    ∀ w k, v.size p = some (w, k) → 0 < w → 0 < k → ∀ q,
    let v' := b.handle layoutOptions v [.position n.id q]
    (∀ r, OnScreen b v p r → OnScreen b v' n.id ⟨r.x + q.x, r.y + q.y⟩) ∧
    (∀ x r, x ≠ p → ¬ Within b [n.id] x → OnScreen b v x r → OnScreen b v' x r) ∧
    ∃ w' k', v'.size p = some (w', k') ∧ ∀ m ∈ b.nodes, m.parent = some p →
      0 ≤ (v'.pos m.id).x ∧ (v'.pos m.id).x + layoutOptions.nodeWidth ≤ w' ∧
      0 ≤ (v'.pos m.id).y ∧ (v'.pos m.id).y + layoutOptions.nodeHeight ≤ k') ∧
  ∀ (dagre : Dagre) (b : Board) (v : View), Draws b → b.Flat → ∃ cs es ids,
    b.layout layoutOptions dagre = some cs ∧ AllTold b es ∧
    (∀ x, x ∈ ids ↔ ∃ n ∈ b.nodes, n.id = x ∧ ¬ n.Scope) ∧
    ∀ n ∈ b.nodes, ¬ n.Scope → OnScreen b (b.handle layoutOptions v cs) n.id (dagre ids es n.id)

/-- C132 is false of a node that is dragged out of its scope to the left: the scope moves there, and the
node, whose position is as seen from the scope, moves once more and is outside of it again. -/
theorem C132_moved_violated : ∃ (b : Board) (v : View) (n : Node) (p : Uid) (q r s : Pos),
    Draws b ∧ n ∈ b.nodes ∧ n.parent = some p ∧ OnScreen b v p r ∧
    OnScreen b (b.handle layoutOptions v [.position n.id q]) n.id s ∧ s ≠ ⟨r.x + q.x, r.y + q.y⟩ ∧
    ((b.handle layoutOptions v [.position n.id q]).pos n.id).x + layoutOptions.nodeWidth ≤ 0 := by
  refine ⟨desk3, shown, ⟨6, some 2, .op ["s"] "j" newJoin⟩, 2, ⟨-300, 450⟩, ⟨1000, 0⟩, ⟨325, 450⟩,
    desk3_draws, by decide +kernel, rfl,
    OnScreen.top (n := ⟨2, none, .op [] "s" newScope⟩) (by decide +kernel) rfl,
    ?_, by decide, by decide +kernel⟩
  have h2 := OnScreen.top (b := desk3) (v := desk3.handle layoutOptions shown [.position 6 ⟨-300, 450⟩])
    (n := ⟨2, none, .op [] "s" newScope⟩) (by decide +kernel) rfl
  have := OnScreen.inside (n := ⟨6, some 2, .op ["s"] "j" newJoin⟩) (by decide +kernel) rfl h2
  exact cast (congrArg (OnScreen _ _ 6) (by decide +kernel)) this

/-- C132 is false of the button: the changes that are made to keep the others in place are applied after
those of the layout, so that nodes go back to where they were. Here two of them end up on the same place,
and nothing in the scope is where the layout put it, as the scope is not moved either. -/
theorem C132_button_violated : ∃ (dagre : Dagre) (b : Board) (v : View) (cs : List Change) (x y : Uid),
    Draws b ∧ b.Flat ∧ b.layout layoutOptions dagre = some cs ∧ x ≠ y ∧
    (v.applyAll cs).pos x ≠ (v.applyAll cs).pos y ∧
    (b.handle layoutOptions v cs).pos x = (b.handle layoutOptions v cs).pos y ∧
    ∃ p, (b.node x).bind (·.parent) = some p ∧ (b.node y).bind (·.parent) = some p ∧
      (b.handle layoutOptions v cs).pos p = v.pos p ∧ (v.applyAll cs).pos p ≠ v.pos p := by
  refine ⟨column, desk3, shown, [.position 0 ⟨10, 0⟩, .position 1 ⟨10, 100⟩, .position 3 ⟨75, 50⟩,
    .position 4 ⟨75, 150⟩, .position 5 ⟨75, 250⟩, .position 6 ⟨75, 350⟩, .position 2 ⟨-65, 150⟩,
    .dimensions 2 350 450], 5, 6, desk3_draws, ?_, by decide +kernel, by decide, by decide +kernel,
    by decide +kernel, 2, by decide +kernel, by decide +kernel, by decide +kernel, by decide +kernel⟩
  intro n hn h
  have := List.all_eq_true.1 (show desk3.nodes.all (fun n => !n.isScope || n.parent == none) = true by
    decide +kernel) n hn
  rw [(isScope_iff n).2 h] at this
  simpa using this

/-- C132 is false of the box: the box is left as it is while it is off by no more than the margin, on the
left and in its width, so that after some moves a node sticks out to the right. -/
theorem C132_box_violated : ∃ (b : Board) (v : View) (moves : List (Uid × Pos)) (n : Node) (p : Uid)
    (w k : Int), Draws b ∧ n ∈ b.nodes ∧ n.parent = some p ∧
    Boxed layoutOptions v p ((b.nodes.filter fun m => m.parent = some p).map (·.id)) ∧
    let v' := moves.foldl (fun v m => b.handle layoutOptions v [.position m.1 m.2]) v
    v'.size p = some (w, k) ∧ w < (v'.pos n.id).x + layoutOptions.nodeWidth := by
  refine ⟨desk3, shown, [(3, ⟨150, 50⟩), (4, ⟨150, 250⟩), (5, ⟨150, 350⟩), (6, ⟨150, 450⟩),
    (6, ⟨225, 450⟩)], ⟨6, some 2, .op ["s"] "j" newJoin⟩, 2, 350, 550, desk3_draws, by decide +kernel, rfl,
    ⟨350, 550, rfl, by decide +kernel, by decide +kernel, by decide +kernel, by decide +kernel,
      by decide +kernel⟩, by decide +kernel, by decide +kernel⟩

/-- C132 in full is false. -/
theorem C132_violated : ¬ C132_full := by
  intro h
  have := ((h.1 desk3 shown desk3_draws.edits ⟨6, some 2, .op ["s"] "j" newJoin⟩ (by decide +kernel) 2 rfl
    350 550 rfl (by decide) (by decide) ⟨-300, 450⟩).2.2)
  obtain ⟨w, k, _, h2⟩ := this
  have := (h2 ⟨6, some 2, .op ["s"] "j" newJoin⟩ (by decide +kernel) rfl).1
  revert this
  decide +kernel

/-! ### Examples -/

/-- The hypotheses of the theorems about one move are met, by one that moves the scope: the others move
against it. -/
example : Edits Board.empty desk3 ∧ OnScreen desk3 shown 2 ⟨1000, 0⟩ ∧ shown.size 2 = some (350, 550) ∧
    (desk3.handle layoutOptions shown [.position 6 ⟨-300, 450⟩]).pos 2 = ⟨625, 0⟩ ∧
    (desk3.handle layoutOptions shown [.position 6 ⟨-300, 450⟩]).size 2 = some (725, 550) ∧
    (desk3.handle layoutOptions shown [.position 6 ⟨-300, 450⟩]).pos 5 = ⟨450, 350⟩ :=
  ⟨desk3_draws.edits, OnScreen.top (n := ⟨2, none, .op [] "s" newScope⟩) (by decide +kernel) rfl,
    rfl, by decide +kernel, by decide +kernel, by decide +kernel⟩

/-- And by one that does not. -/
example : (desk3.handle layoutOptions shown [.position 6 ⟨100, 470⟩]).pos 2 = shown.pos 2 ∧
    (desk3.handle layoutOptions shown [.position 6 ⟨100, 470⟩]).pos 6 = ⟨100, 470⟩ := by decide +kernel

/-- The hypotheses of `C132_button_partial` are met by a diagram with a buffer. -/
example : Draws (Board.empty.add none 2 3 4 "b" newBuffer) ∧
    ∀ n ∈ (Board.empty.add none 2 3 4 "b" newBuffer).nodes, ¬ n.Scope := by
  refine ⟨.step .empty (.add none 2 3 4 "b" newBuffer (by decide +kernel) (not_taken (by decide +kernel)))
    (keeps_add _ _ _ _ _ _ _), fun n hn h => ?_⟩
  have := List.all_eq_true.1 (show (Board.empty.add none 2 3 4 "b" newBuffer).nodes.all
    (fun n => !n.isScope) = true by decide +kernel) n hn
  rw [(isScope_iff n).2 h] at this
  simp at this

end Verif.Editor
