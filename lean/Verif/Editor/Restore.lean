import Verif.Editor.Sync
/-
The edges that are made for an operation restore it when they are exported.
-/
namespace Verif.Editor

section
variable {reg : Registry} {N : Nodes} {k : Key}

/-- An edge to a target that is drawn gives the target back. -/
theorem drawn_from {at_ : List Name} (he : N.hasEnd at_ = true) {t : Next}
    (h : Drawn (fun n => N.get ⟨at_, n⟩) t) :
    ∃ i, N.fromNext at_ t = some (some i) ∧
      ∀ src kind, targetNext N.kind ⟨src, i, kind, none⟩ = some t := by
  cases t with
  | op n =>
    have h1 : (N.get ⟨at_, n⟩).isSome := h
    refine ⟨.op ⟨at_, n⟩, by simp [Nodes.fromNext, h1], fun _ _ => ?_⟩
    simp [targetNext, Nodes.kind, h1]
  | terminate => exact ⟨.terminate at_, by simp [Nodes.fromNext, he], fun _ _ => rfl⟩
  | dispose => exact h.elim
  | cancel => exact h.elim
  | inner _ _ => exact h.elim

theorem piece_drawn (he : N.hasEnd k.ns = true) {kind : EdgeKind} (hk : kind.buffer? = none)
    (hv : ∀ i, validEdge reg N ⟨.op k, i, kind, none⟩ = true) {t : Next}
    (h : Drawn (fun n => N.get ⟨k.ns, n⟩) t) {b b' : Body}
    (hs : syncOut kind (some t) b = some b') :
    Piece N.kind (validEdge reg N) k (edgeTo N k.ns (.op k) kind t) b b' := by
  obtain ⟨i, h1, h2⟩ := drawn_from he h
  simp only [edgeTo, h1]
  refine .one (.inr ⟨hk, .inl rfl⟩) (hv i) ?_
  simp only [syncBody, hk, h2, hs]

theorem piece_single (he : N.hasEnd k.ns = true) {kind : EdgeKind} (hk : kind.buffer? = none)
    (hv : ∀ i, validEdge reg N ⟨.op k, i, kind, none⟩ = true) {t : Next}
    (h : DrawnOrDispose (fun n => N.get ⟨k.ns, n⟩) t) (mk : Next → Body)
    (hs : ∀ t, syncOut kind (some t) (mk .dispose) = some (mk t)) :
    Piece N.kind (validEdge reg N) k (edgeTo N k.ns (.op k) kind t) (mk .dispose) (mk t) := by
  rcases h with h | h
  · exact piece_drawn he hk hv h (hs t)
  · subst h
    exact .empty _

theorem piece_map (he : N.hasEnd k.ns = true) {kind : Name → EdgeKind}
    (hk : ∀ x, (kind x).buffer? = none) {l : List (Name × Next)}
    (hv : ∀ x t, (x, t) ∈ l → ∀ i, validEdge reg N ⟨.op k, i, kind x, none⟩ = true)
    (h : DrawnMap (fun n => N.get ⟨k.ns, n⟩) l) (mk : List (Name × Next) → Body)
    (hs : ∀ acc x t, syncOut (kind x) (some t) (mk acc) = some (mk (setKey acc x t))) :
    Piece N.kind (validEdge reg N) k
      (gather (fun (x, t) => edgeTo N k.ns (.op k) (kind x) t) l) (mk []) (mk l) := by
  apply Piece.gather
  rintro pre ⟨x, t⟩ suf hl
  have hm : (x, t) ∈ l := by rw [hl]; simp
  refine piece_drawn he (hk x) (hv x t hm) (h.2 _ hm) ?_
  rw [hs, setKey_append]
  have := h.1
  rw [hl, List.map_append, List.nodup_append] at this
  intro hx
  exact this.2.2 x hx x (by simp) rfl

theorem piece_entries (he : N.hasEnd k.ns = true) {l : List (Option Next)}
    (h : ∀ t ∈ l, ∃ b, t = some b ∧ Drawn (fun n => N.get ⟨k.ns, n⟩) b) :
    Piece N.kind (validEdge reg N) k
      (gather (fun (i, t) => t.bind fun t => edgeTo N k.ns (.op k) (.unzip i) t) (entries 0 l))
      (.unzip []) (.unzip l) := by
  have := Piece.gather (kinds := N.kind) (valid := validEdge reg N) (k := k)
    (f := fun (p : Nat × Option Next) =>
      p.2.bind fun t => edgeTo N k.ns (.op k) (.unzip p.1) t)
    (fun l => .unzip (l.map (·.2))) (l := entries 0 l) ?_
  · rw [entries_snd] at this; exact this
  · rintro pre ⟨i, t⟩ suf hl
    obtain ⟨h1, h2⟩ := entries_split hl
    rw [Nat.zero_add] at h1
    obtain ⟨b, h3, h4⟩ := h t (by rw [h2]; simp)
    subst h1 h3
    refine piece_drawn he rfl (fun _ => rfl) h4 ?_
    have h5 := setHole_append (pre.map (·.2)) b
    rw [List.length_map] at h5
    simp [syncOut, h5]

theorem piece_seq (he : N.hasEnd k.ns = true) {l : List Next}
    (h : ∀ t ∈ l, DrawnOrDispose (fun n => N.get ⟨k.ns, n⟩) t) (hl : l.getLast? ≠ some .dispose)
    (keyed : List (Name × Next)) :
    Piece N.kind (validEdge reg N) k
      (gather (fun (i, t) => edgeTo N k.ns (.op k) (.splitSeq i) t) (entries 0 l))
      (.split keyed [] none) (.split keyed l none) := by
  have := Piece.gather (kinds := N.kind) (valid := validEdge reg N) (k := k)
    (f := fun (p : Nat × Next) => edgeTo N k.ns (.op k) (.splitSeq p.1) p.2)
    (fun l => .split keyed (trimEnd (l.map (·.2))) none) (l := entries 0 l) ?_
  · rw [entries_snd, trimEnd_eq l hl] at this; exact this
  · rintro pre ⟨i, t⟩ suf hp
    obtain ⟨h1, h2⟩ := entries_split hp
    rw [Nat.zero_add] at h1
    subst h1
    rw [List.map_append]
    rcases h t (by rw [h2]; simp) with h3 | h3
    · refine piece_drawn he rfl (fun _ => rfl) h3 ?_
      have h5 := setSeq_trimEnd (pre.map (·.2)) t
      rw [List.length_map] at h5
      have ht : t ≠ .dispose := fun e => by subst e; exact h3
      simp [syncOut, h5, trimEnd_other _ ht]
    · subst h3
      simp only [List.map_cons, List.map_nil, trimEnd_dispose]
      exact .empty _

theorem piece_fork (he : N.hasEnd k.ns = true) {l : List Next}
    (h : ∀ t ∈ l, Drawn (fun n => N.get ⟨k.ns, n⟩) t) (hl : l.Nodup) :
    Piece N.kind (validEdge reg N) k
      (gather (fun t => edgeTo N k.ns (.op k) .default t) l) (.forkClone []) (.forkClone l) := by
  apply Piece.gather
  intro pre t suf hp
  refine piece_drawn he rfl (fun _ => rfl) (h t (by rw [hp]; simp)) ?_
  have h1 : t ∉ pre := by
    rw [hp, List.nodup_append] at hl
    intro hx
    exact hl.2.2 t hx t (by simp) rfl
  simp [syncOut, h1]

/-- A buffer next to an operation is where its edge comes from. -/
theorem buffer_from {t : Next} (h : IsBuffer (fun n => N.get ⟨k.ns, n⟩) t) :
    ∃ n, t = .op n ∧ N.fromNext k.ns t = some (some (.op ⟨k.ns, n⟩)) ∧
      N.kind ⟨k.ns, n⟩ = some .buffer := by
  obtain ⟨n, o, h1, h2, h3⟩ := h
  refine ⟨n, h1, ?_, ?_⟩
  · simp [h1, Nodes.fromNext, h2]
  · simp [Nodes.kind, h2, h3, Body.kind]

theorem piece_arr {b : Body} {l : List (Option Next)}
    (h : ∀ t ∈ l, ∃ b, t = some b ∧ IsBuffer (fun n => N.get ⟨k.ns, n⟩) b)
    (st : List (Option Next) → Body)
    (hs : ∀ pre n suf, l = pre ++ some (.op n) :: suf → N.kind ⟨k.ns, n⟩ = some .buffer →
      syncBuffer N.kind ⟨.op ⟨k.ns, n⟩, .op k, .bufferSeq pre.length (fetchType b (.idx pre.length)),
        none⟩ (.idx pre.length) (fetchType b (.idx pre.length)) (st pre) =
          some (st (pre ++ [some (.op n)]))) :
    Piece N.kind (validEdge reg N) k (bufferEdges N k b (.arr l)) (st []) (st l) := by
  have := Piece.gather (kinds := N.kind) (valid := validEdge reg N) (k := k)
    (f := fun (p : Nat × Option Next) => p.2.bind fun t =>
      bufferEdge N k (.bufferSeq p.1 (fetchType b (.idx p.1))) t)
    (fun l => st (l.map (·.2))) (l := entries 0 l) ?_
  · rw [entries_snd] at this; exact this
  · rintro pre ⟨i, t⟩ suf hp
    obtain ⟨h1, h2⟩ := entries_split hp
    rw [Nat.zero_add] at h1
    subst h1
    obtain ⟨t', h3, h4⟩ := h t (by rw [h2]; simp)
    obtain ⟨n, h5, h6, h7⟩ := buffer_from h4
    subst h3
    simp only [Option.bind_some, bufferEdge, h6]
    refine .one (.inl ⟨rfl, rfl⟩) rfl ?_
    have h8 := hs (pre.map (·.2)) n (suf.map (·.2)) (by rw [h2, h5]) h7
    rw [List.length_map] at h8
    simp only [syncBody, EdgeKind.buffer?, h8, List.map_append, List.map_cons, List.map_nil, h5]

theorem piece_dict {b : Body} {l : List (Name × Next)}
    (h : ∀ p ∈ l, IsBuffer (fun n => N.get ⟨k.ns, n⟩) p.2)
    (st : List (Name × Next) → Body)
    (hs : ∀ pre x n suf, l = pre ++ (x, .op n) :: suf → N.kind ⟨k.ns, n⟩ = some .buffer →
      syncBuffer N.kind ⟨.op ⟨k.ns, n⟩, .op k, .bufferKey x (fetchType b (.key x)), none⟩
        (.key x) (fetchType b (.key x)) (st pre) = some (st (pre ++ [(x, .op n)]))) :
    Piece N.kind (validEdge reg N) k (bufferEdges N k b (.dict l)) (st []) (st l) := by
  simp only [bufferEdges]
  apply Piece.gather
  rintro pre ⟨x, t⟩ suf hp
  obtain ⟨n, h5, h6, h7⟩ := buffer_from (h (x, t) (by rw [hp]; simp))
  simp only at h5 h6
  simp only [bufferEdge, h6]
  refine .one (.inl ⟨rfl, rfl⟩) rfl ?_
  have h8 := hs pre x n suf (by rw [hp, h5]) h7
  simp only [syncBody, EdgeKind.buffer?, h8, h5]

/-- The part of a selection by keys that has been exported: an array until the first key. -/
def dictSoFar : List (Name × Next) → Sel
  | [] => .arr []
  | l => .dict l

theorem setBuffer_dict {pre : List (Name × Next)} {x : Name} (h : x ∉ pre.map (·.1)) (n : Name)
    (f : Fetch) : setBuffer (dictSoFar pre) (.bufferKey x f) n =
      some (dictSoFar (pre ++ [(x, .op n)])) := by
  cases pre with
  | nil => rfl
  | cons p pre =>
    simp only [dictSoFar, setBuffer, setKey_append _ _ _ h]
    rfl

theorem setBuffer_arr (pre : List (Option Next)) (n : Name) (f : Fetch) :
    setBuffer (.arr pre) (.bufferSeq pre.length f) n = some (.arr (pre ++ [some (.op n)])) := by
  simp only [setBuffer, setHole_append]

/-- The buffers of an operation that does not clone. -/
theorem piece_sel {b : Body} {s : Sel} (h : BuffersOk (fun n => N.get ⟨k.ns, n⟩) s)
    (mk : Sel → Body)
    (hs : ∀ (e : Edge) id f s n, e.source = .op ⟨k.ns, n⟩ → N.kind ⟨k.ns, n⟩ = some .buffer →
      (f = fetchType b id) →
      syncBuffer N.kind e id f (mk s) = (setBuffer s e.kind n).map mk) :
    Piece N.kind (validEdge reg N) k (bufferEdges N k b s) (mk (.arr [])) (mk s) := by
  cases s with
  | arr l =>
    refine piece_arr h (fun l => mk (.arr l)) ?_
    intro pre n suf hl hk
    rw [hs _ _ _ _ n rfl hk rfl, setBuffer_arr]
    rfl
  | dict l =>
    have := piece_dict (reg := reg) (b := b) h.2.2 (fun l => mk (dictSoFar l)) ?_
    · have h1 : dictSoFar l = .dict l := by
        cases l with
        | nil => exact absurd rfl h.1
        | cons p l => rfl
      rw [h1] at this
      exact this
    · intro pre x n suf hl hk
      rw [hs _ _ _ _ n rfl hk rfl, setBuffer_dict]
      · rfl
      · have := h.2.1
        rw [hl, List.map_append, List.nodup_append] at this
        intro hx
        exact this.2.2 x hx x (by simp) rfl

/-- `clone` after the first `j` buffers, if the first `m` are cloned. -/
def cloneSoFar (m j : Nat) : Option (List BufId) :=
  if min m j = 0 then none else some ((List.range (min m j)).map .idx)

theorem cloneSoFar_succ (m j : Nat) :
    cloneSoFar m (j + 1) =
      pushClone (cloneSoFar m j) (if j < m then .clone else .pull) (.idx j) := by
  unfold cloneSoFar
  by_cases h : j < m
  · have h1 : min m (j + 1) = j + 1 := by omega
    have h2 : min m j = j := by omega
    rw [if_pos h, h1, h2]
    by_cases h0 : j = 0
    · subst h0; rfl
    · rw [if_neg (by omega), if_neg h0]
      simp [pushClone, List.range_succ]
  · have h1 : min m (j + 1) = m := by omega
    have h2 : min m j = m := by omega
    rw [if_neg h, h1, h2]
    rfl

theorem piece_join {s : Sel} {c : Option (List BufId)} {next : Next}
    (h : BuffersOk (fun n => N.get ⟨k.ns, n⟩) s) (hc : CloneOk s c) :
    Piece N.kind (validEdge reg N) k (bufferEdges N k (.join s c next) s)
      (.join (.arr []) none .dispose) (.join s c .dispose) := by
  cases c with
  | none =>
    refine piece_sel h (fun s => .join s none .dispose) ?_
    intro e id f s' n h1 h2 h3
    have h4 : f = .pull := h3
    subst h4
    simp only [syncBuffer, h1, h2, if_true, pushClone]
  | some c =>
    cases s with
    | dict l => exact hc.elim
    | arr l =>
      obtain ⟨m, h1, h2, h3⟩ := hc
      have := piece_arr (reg := reg) (b := .join (.arr l) (some c) next) h
        (fun l => .join (.arr l) (cloneSoFar m l.length) .dispose) ?_
      · have h4 : cloneSoFar m l.length = some c := by
          unfold cloneSoFar
          rw [if_neg (by omega), h3]
          congr 3
          omega
        have h5 : cloneSoFar m ([] : List (Option Next)).length = none := by
          unfold cloneSoFar
          rw [if_pos (by simp)]
        simp only [h4, h5] at this
        exact this
      · intro pre n suf hl hk
        have hf : fetchType (.join (.arr l) (some c) next) (.idx pre.length) =
            (if pre.length < m then Fetch.clone else .pull) := by
          simp [fetchType, inArray, h3]
        simp only [syncBuffer, hk, if_true, setBuffer_arr, Option.map_some, hf,
          List.length_append, List.length_singleton, cloneSoFar_succ]

/-- The edges that are made for an operation restore it. -/
theorem piece_op (he : N.hasEnd k.ns = true) {o : Op} (hg : N.get k = some o)
    (h : BodyOk reg (fun n => N.get ⟨k.ns, n⟩) (fun n => N.get ⟨k.inside, n⟩) o.body) :
    Piece N.kind (validEdge reg N) k (opEdges N k o.body) o.body.clear o.body := by
  obtain ⟨extra, b⟩ := o
  simp only at h ⊢
  cases b with
  | node builder next streams =>
    obtain ⟨h1, h2, h3⟩ := h
    refine .andThen (b' := .node builder next []) ?_ ?_
    · exact piece_single he rfl (fun _ => rfl) h1 (fun t => .node builder t []) fun _ => rfl
    · refine piece_map he (fun _ => rfl) ?_ h2 (fun l => .node builder next l) fun _ _ _ => rfl
      intro x t hx i
      rcases h3 with h3 | ⟨s, l, h3⟩
      · subst h3; cases hx
      · simp only [validEdge, hg, h3]
  | transform next =>
    exact piece_single he rfl (fun _ => rfl) h (fun t => .transform t) fun _ => rfl
  | forkClone l => exact piece_fork he h.2 h.1
  | unzip l => exact piece_entries he h
  | forkResult ok err =>
    refine .andThen (b' := .forkResult ok .dispose) ?_ ?_
    · exact piece_single he rfl (fun _ => rfl) h.1 (fun t => .forkResult t .dispose) fun _ => rfl
    · exact piece_single he rfl (fun _ => rfl) h.2 (fun t => .forkResult ok t) fun _ => rfl
  | split keyed seq rem =>
    obtain ⟨h1, h2, h3, h4⟩ := h
    refine .andThen (b' := .split keyed [] none) ?_ (.andThen (b' := .split keyed seq none) ?_ ?_)
    · exact piece_map he (fun _ => rfl) (fun _ _ _ _ => rfl) h1 (fun l => .split l [] none)
        fun _ _ _ => rfl
    · exact piece_seq he h2 h3 keyed
    · cases rem with
      | none => exact .empty _
      | some t => exact piece_drawn he rfl (fun _ => rfl) (h4 t rfl) rfl
  | join s c next =>
    refine .andThen (b' := .join s c .dispose) (piece_join h.1 h.2.1) ?_
    exact piece_single he rfl (fun _ => rfl) h.2.2 (fun t => .join s c t) fun _ => rfl
  | listen s next =>
    refine .andThen (b' := .listen s .dispose) ?_ ?_
    · refine piece_sel h.1 (fun s => .listen s .dispose) ?_
      intro e id f s' n h1 h2 _
      simp only [syncBuffer, h1, h2, if_true]
    · exact piece_single he rfl (fun _ => rfl) h.2 (fun t => .listen s t) fun _ => rfl
  | access s next =>
    refine .andThen (b' := .access s .dispose) ?_ ?_
    · refine piece_sel h.1 (fun s => .access s .dispose) ?_
      intro e id f s' n h1 h2 _
      simp only [syncBuffer, h1, h2, if_true]
    · exact piece_single he rfl (fun _ => rfl) h.2 (fun t => .access s t) fun _ => rfl
  | buffer => exact .empty _
  | streamOut => exact .empty _
  | sect connect =>
    exact piece_map he (fun _ => rfl) (fun _ _ _ _ => rfl) h (fun l => .sect l) fun _ _ _ => rfl
  | scope next streams start =>
    obtain ⟨h1, h2, h3⟩ := h
    subst h2
    refine .andThen (b' := .scope next [] .dispose) ?_
      (.andThen (b' := .scope next [] .dispose) (.empty _) ?_)
    · exact piece_single he rfl (fun _ => rfl) h1 (fun t => .scope t [] .dispose) fun _ => rfl
    · have hi : N.hasEnd k.inside = true := by
        simp only [Nodes.hasEnd, Bool.or_eq_true, List.any_eq_true]
        exact .inr ⟨_, get_mem hg, by simp [Body.kind]⟩
      rcases h3 with h3 | h3
      · obtain ⟨i, h4, h5⟩ := drawn_from hi h3
        simp only [edgeTo, h4]
        refine .one (.inr ⟨rfl, .inr rfl⟩) rfl ?_
        simp only [syncBody, EdgeKind.buffer?, h5, Option.map_some]
      · subst h3
        exact .empty _

end

end Verif.Editor
