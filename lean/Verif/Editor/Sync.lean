import Verif.Editor.Lemmas
/-
Lemmas about exporting edges: an edge changes one operation, and the edges of an operation restore
it.
-/
namespace Verif.Editor

/-- An edge that changes the operation `k`. -/
def Owned (k : Key) (e : Edge) : Prop :=
  (e.kind.buffer?.isSome ∧ e.target = .op k) ∨
    (e.kind.buffer? = none ∧ (e.source = .op k ∨ e.source = .start (some k)))

/-- What an edge does to the operation that it changes. -/
def syncBody (kinds : Key → Option Kind) (e : Edge) (b : Body) : Option Body :=
  match e.kind.buffer? with
  | some (id, f) => syncBuffer kinds e id f b
  | none =>
    match e.source with
    | .op _ => syncOut e.kind (targetNext kinds e) b
    | .start _ =>
      match b with
      | .scope next streams _ => (targetNext kinds e).map fun t => .scope next streams t
      | _ => none
    | .terminate _ => some b

/-- What edges do to the operation that they change. -/
def syncBodies (kinds : Key → Option Kind) (b : Body) : List Edge → Option Body
  | [] => some b
  | e :: es => (syncBody kinds e b).bind fun b => syncBodies kinds b es

theorem syncEdge_owned {kinds : Key → Option Kind} {d : Draft} {k : Key} {e : Edge}
    (h : Owned k e) : syncEdge kinds d e = d.change k (syncBody kinds e) := by
  obtain ⟨src, tgt, kind, slot⟩ := e
  rcases h with ⟨h1, h2⟩ | ⟨h1, h2⟩
  · simp only at h1 h2
    subst h2
    obtain ⟨⟨id, f⟩, h⟩ := Option.isSome_iff_exists.1 h1
    simp only [syncEdge, h]
    congr 1
    funext b
    simp only [syncBody, h]
  · simp only at h1 h2
    rcases h2 with h2 | h2 <;> subst h2 <;> simp only [syncEdge, h1] <;> congr 1 <;> funext b <;>
      simp only [syncBody, h1]
    cases b <;> rfl

theorem syncAll_append (kinds : Key → Option Kind) (d : Draft) (a b : List Edge) :
    syncAll kinds d (a ++ b) = (syncAll kinds d a).bind fun d => syncAll kinds d b := by
  induction a generalizing d with
  | nil => rfl
  | cons e a ih =>
    simp only [List.cons_append, syncAll]
    cases syncEdge kinds d e with
    | none => rfl
    | some d => exact ih d

theorem syncBodies_append (kinds : Key → Option Kind) (b : Body) (x y : List Edge) :
    syncBodies kinds b (x ++ y) = (syncBodies kinds b x).bind fun b => syncBodies kinds b y := by
  induction x generalizing b with
  | nil => rfl
  | cons e x ih =>
    simp only [List.cons_append, syncBodies]
    cases syncBody kinds e b with
    | none => rfl
    | some b => exact ih b

/-- Draft `d'` is `d` with another body for `k`. -/
structure Changed (d d' : Draft) (k : Key) (o : Op) : Prop where
  start : d'.start = d.start
  keys : d'.nodes.map (·.1) = d.nodes.map (·.1)
  self : d'.nodes.get k = some o
  other : ∀ j, j ≠ k → d'.nodes.get j = d.nodes.get j

/-- Edges of one operation change only it. -/
theorem syncAll_owned {kinds : Key → Option Kind} {k : Key} {es : List Edge}
    (ho : ∀ e ∈ es, Owned k e) {d : Draft} {o : Op} (hg : d.nodes.get k = some o) {b : Body}
    (hb : syncBodies kinds o.body es = some b) :
    ∃ d', syncAll kinds d es = some d' ∧ Changed d d' k { o with body := b } := by
  induction es generalizing d o with
  | nil =>
    cases hb
    exact ⟨d, rfl, rfl, rfl, hg, fun _ _ => rfl⟩
  | cons e es ih =>
    simp only [syncBodies] at hb
    cases h1 : syncBody kinds e o.body with
    | none => rw [h1] at hb; cases hb
    | some b1 =>
      rw [h1] at hb
      have h2 : syncEdge kinds d e = some { d with nodes := d.nodes.put k b1 } := by
        rw [syncEdge_owned (ho e (List.mem_cons_self ..)), Draft.change, hg]
        simp only [h1, Option.map_some]
      have h3 : (d.nodes.put k b1).get k = some { o with body := b1 } := get_put_self b1 hg
      obtain ⟨d', h4, h5⟩ := ih (fun e he => ho e (List.mem_cons_of_mem _ he))
        (d := { d with nodes := d.nodes.put k b1 }) h3 hb
      refine ⟨d', ?_, h5.start, ?_, h5.self, ?_⟩
      · simp only [syncAll, h2, Option.bind_some]; exact h4
      · rw [h5.keys]; exact keys_put ..
      · intro j hj
        rw [h5.other j hj]; exact get_put_ne b1 hj

/-- A part of the edges of the operation `k`: it can be made, exporting does not drop any of it, and
it turns the body `b` into `b'`. -/
def Piece (kinds : Key → Option Kind) (valid : Edge → Bool) (k : Key) (r : Option (List Edge))
    (b b' : Body) : Prop :=
  ∃ es, r = some es ∧ (∀ e ∈ es, Owned k e) ∧ (∀ e ∈ es, valid e = true) ∧
    syncBodies kinds b es = some b'

section
variable {kinds : Key → Option Kind} {valid : Edge → Bool} {k : Key}

theorem Piece.empty (b : Body) : Piece kinds valid k (some []) b b :=
  ⟨[], rfl, List.forall_mem_nil _, List.forall_mem_nil _, rfl⟩

theorem Piece.one {e : Edge} {b b' : Body} (ho : Owned k e) (hv : valid e = true)
    (hs : syncBody kinds e b = some b') : Piece kinds valid k (some [e]) b b' := by
  refine ⟨[e], rfl, ?_, ?_, ?_⟩
  · intro x hx; rw [List.mem_singleton.1 hx]; exact ho
  · intro x hx; rw [List.mem_singleton.1 hx]; exact hv
  · simp [syncBodies, hs]

theorem Piece.append {es es' : List Edge} {b b' b'' : Body}
    (h : Piece kinds valid k (some es) b b') (h' : Piece kinds valid k (some es') b' b'') :
    Piece kinds valid k (some (es ++ es')) b b'' := by
  obtain ⟨x, hx, h1, h2, h3⟩ := h
  obtain ⟨y, hy, h4, h5, h6⟩ := h'
  cases hx; cases hy
  refine ⟨_, rfl, ?_, ?_, ?_⟩
  · intro e he; rcases List.mem_append.1 he with h | h
    · exact h1 e h
    · exact h4 e h
  · intro e he; rcases List.mem_append.1 he with h | h
    · exact h2 e h
    · exact h5 e h
  · rw [syncBodies_append, h3]; exact h6

theorem Piece.andThen {r r' : Option (List Edge)} {b b' b'' : Body}
    (h : Piece kinds valid k r b b') (h' : Piece kinds valid k r' b' b'') :
    Piece kinds valid k (andThen r r') b b'' := by
  have h1 := h
  have h2 := h'
  obtain ⟨x, hx, _⟩ := h1
  obtain ⟨y, hy, _⟩ := h2
  subst hx hy
  exact h.append h'

theorem Piece.gather {α : Type} {f : α → Option (List Edge)} (st : List α → Body) {l : List α}
    (h : ∀ pre a suf, l = pre ++ a :: suf → Piece kinds valid k (f a) (st pre) (st (pre ++ [a]))) :
    Piece kinds valid k (gather f l) (st []) (st l) := by
  suffices H : ∀ suf pre, l = pre ++ suf →
      Piece kinds valid k (Verif.Editor.gather f suf) (st pre) (st l) from H l [] rfl
  intro suf
  induction suf with
  | nil => intro pre hl; rw [hl, List.append_nil]; exact .empty _
  | cons a suf ih =>
    intro pre hl
    have h1 := h pre a suf hl
    have h2 := ih (pre ++ [a]) (by simp [hl])
    have h3 := h1
    have h4 := h2
    obtain ⟨x, hx, _⟩ := h3
    obtain ⟨y, hy, _⟩ := h4
    simp only [Verif.Editor.gather, hx, hy]
    rw [hx] at h1
    rw [hy] at h2
    exact h1.append h2

end

/-! ### Lists -/

theorem setKey_append {α : Type} (l : List (Name × α)) (x : Name) (v : α)
    (h : x ∉ l.map (·.1)) : setKey l x v = l ++ [(x, v)] := by
  induction l with
  | nil => rfl
  | cons p l ih =>
    obtain ⟨x', v'⟩ := p
    simp only [List.map_cons, List.mem_cons, not_or] at h
    simp only [setKey, if_neg (Ne.symm h.1), ih h.2, List.cons_append]

theorem setHole_append {α : Type} (l : List (Option α)) (v : α) :
    setHole l l.length v = l ++ [some v] := by
  have : l.length + 1 - l.length = 1 := by omega
  simp only [setHole, this]
  rw [List.set_append_right _ _ (Nat.le_refl _)]
  simp

theorem entries_split {α : Type} {l : List α} {n : Nat} {pre suf : List (Nat × α)} {i : Nat} {a : α}
    (h : entries n l = pre ++ (i, a) :: suf) :
    i = n + pre.length ∧ l = pre.map (·.2) ++ a :: suf.map (·.2) := by
  induction l generalizing n pre with
  | nil => simp [entries] at h
  | cons b l ih =>
    cases pre with
    | nil =>
      simp only [entries, List.nil_append, List.cons.injEq, Prod.mk.injEq] at h
      obtain ⟨⟨h1, h2⟩, h3⟩ := h
      refine ⟨h1.symm, ?_⟩
      subst h2 h3
      have : ∀ (l : List α) n, (entries n l).map (·.2) = l := by
        intro l
        induction l with
        | nil => intro _; rfl
        | cons a l ih => intro n; simp only [entries, List.map_cons, ih]
      simp [this]
    | cons p pre =>
      simp only [entries, List.cons_append, List.cons.injEq] at h
      obtain ⟨h1, h3⟩ := h
      obtain ⟨h4, h5⟩ := ih h3
      refine ⟨by simp; omega, ?_⟩
      subst h1
      simp [h5]

theorem entries_snd {α : Type} (l : List α) (n : Nat) : (entries n l).map (·.2) = l := by
  induction l generalizing n with
  | nil => rfl
  | cons a l ih => simp only [entries, List.map_cons, ih]

theorem entries_length {α : Type} (l : List α) (n : Nat) : (entries n l).length = l.length := by
  rw [← List.length_map (f := (·.2)), entries_snd]

/-- A list without `dispose` at its end. -/
def trimEnd (l : List Next) : List Next := (l.reverse.dropWhile (· == .dispose)).reverse

theorem trimEnd_dispose (l : List Next) : trimEnd (l ++ [.dispose]) = trimEnd l := by
  simp [trimEnd]

theorem trimEnd_other (l : List Next) {t : Next} (h : t ≠ .dispose) : trimEnd (l ++ [t]) = l ++ [t] := by
  have : (t == Next.dispose) = false := by simpa using h
  simp [trimEnd, this]

theorem trimEnd_eq (l : List Next) (h : l.getLast? ≠ some .dispose) : trimEnd l = l := by
  rcases List.eq_nil_or_concat l with rfl | ⟨l', t, rfl⟩
  · rfl
  · rw [List.concat_eq_append] at h ⊢
    apply trimEnd_other
    intro e
    apply h
    simp [e]

theorem trimEnd_pad (l : List Next) :
    ∃ j, trimEnd l ++ List.replicate j Next.dispose = l := by
  suffices H : ∀ r : List Next, ∃ j, trimEnd r.reverse ++ List.replicate j Next.dispose = r.reverse by
    simpa using H l.reverse
  intro r
  induction r with
  | nil => exact ⟨0, rfl⟩
  | cons t r ih =>
    rw [List.reverse_cons]
    by_cases h : t = .dispose
    · subst h
      rw [trimEnd_dispose]
      obtain ⟨j, hj⟩ := ih
      exact ⟨j + 1, by rw [List.replicate_succ', ← List.append_assoc, hj]⟩
    · exact ⟨0, by rw [trimEnd_other _ h]; simp⟩

theorem setSeq_trimEnd (l : List Next) (v : Next) :
    setSeq (trimEnd l) l.length v = l ++ [v] := by
  obtain ⟨j, hj⟩ := trimEnd_pad l
  have hl : (trimEnd l).length + j = l.length := by
    have := congrArg List.length hj
    simpa using this
  have h1 : l.length + 1 - (trimEnd l).length = j + 1 := by omega
  simp only [setSeq, h1, List.replicate_succ', ← List.append_assoc, hj]
  rw [List.set_append_right _ _ (Nat.le_refl _)]
  simp

end Verif.Editor
