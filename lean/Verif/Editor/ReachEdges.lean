import Verif.Editor.ReachNodes
import Verif.Editor.ReachSpec
import Verif.Editor.Props
/-
The edges of a diagram that can be drawn do not get in each other's way. For C128.
-/
namespace Verif.Editor

/-- The handle that an edge starts at. -/
def EdgeKind.handle : EdgeKind → Handle
  | .stream _ => .dataStream
  | .ok => .ok
  | .err => .err
  | _ => .plain

/-- Operations with one output for many edges. -/
def manyKinds : List Kind := [.forkClone, .unzip, .buffer, .sect, .split]

/-- Two edges that cannot both be drawn. -/
def Clash (N : Nodes) (e e' : Edge) : Prop :=
  e.source = e'.source ∧ e.kind.handle = e'.kind.handle ∧
    (e.target = e'.target ∨ e.kind.handle = .dataStream ∨
      ¬ ∃ k x, e.source = .op k ∧ N.kind k = some x ∧ x ∈ manyKinds)

/-- An edge whose ends are there and allow it. -/
structure Fits (N : Nodes) (e : Edge) : Prop where
  allowed : Allowed N e
  source : Exists N e.source
  target : Exists N e.target
  takes : match e.target with
    | .op k => ∃ x, N.kind k = some x ∧
        if e.kind.buffer?.isSome then x ∈ [Kind.join, .listen, .access] else x ∉ [Kind.join, .listen, .sect]
    | .terminate _ => e.kind.buffer? = none
    | .start _ => False
  slot : e.slot = none
  unzip : ∀ i, e.kind = .unzip i → i = 0
  fetch : ∀ id f, e.kind.buffer? = some (id, f) → f ≠ .unset →
    ∃ k, e.target = .op k ∧ N.kind k = some .join

/-- Edges that can be drawn one after the other. -/
def Good (N : Nodes) (es : List Edge) : Prop :=
  (∀ e ∈ es, Fits N e) ∧ es.Pairwise fun e e' => ¬ Clash N e e'

section
variable {N : Nodes}

theorem Good.nil : Good N [] := ⟨List.forall_mem_nil _, .nil⟩

theorem Good.append {a b : List Edge} (ha : Good N a) (hb : Good N b)
    (h : ∀ x ∈ a, ∀ y ∈ b, ¬ Clash N x y) : Good N (a ++ b) :=
  ⟨fun e he => (List.mem_append.1 he).elim (ha.1 e) (hb.1 e), List.pairwise_append.2 ⟨ha.2, hb.2, h⟩⟩

theorem andThen_some {a b : Option (List Edge)} {es : List Edge} (h : andThen a b = some es) :
    ∃ x y, a = some x ∧ b = some y ∧ es = x ++ y := by
  unfold andThen at h
  cases a with
  | none => cases h
  | some x =>
    simp only [Option.map_eq_some_iff] at h
    obtain ⟨y, h1, rfl⟩ := h
    exact ⟨x, y, rfl, h1, rfl⟩

theorem mem_gather {α : Type} {f : α → Option (List Edge)} {l : List α} {es : List Edge}
    (h : gather f l = some es) {e : Edge} (he : e ∈ es) : ∃ a ∈ l, ∃ xs, f a = some xs ∧ e ∈ xs := by
  induction l generalizing es with
  | nil => cases h; cases he
  | cons a l ih =>
    simp only [gather] at h
    cases ha : f a with
    | none => rw [ha] at h; cases h
    | some xs =>
      rw [ha] at h
      cases hl : gather f l with
      | none => rw [hl] at h; cases h
      | some ys =>
        rw [hl] at h
        cases h
        rcases List.mem_append.1 he with he | he
        · exact ⟨a, List.mem_cons_self .., xs, ha, he⟩
        · obtain ⟨c, h1, h2⟩ := ih hl he
          exact ⟨c, List.mem_cons_of_mem _ h1, h2⟩

theorem Good.gather {α : Type} {f : α → Option (List Edge)} {l : List α} {es : List Edge}
    (h : gather f l = some es) (h1 : ∀ a ∈ l, ∀ xs, f a = some xs → Good N xs)
    (h2 : l.Pairwise fun a a' => ∀ xs ys, f a = some xs → f a' = some ys →
      ∀ x ∈ xs, ∀ y ∈ ys, ¬ Clash N x y) : Good N es := by
  induction l generalizing es with
  | nil => cases h; exact .nil
  | cons a l ih =>
    simp only [Editor.gather] at h
    cases ha : f a with
    | none => rw [ha] at h; cases h
    | some xs =>
      rw [ha] at h
      cases hl : Editor.gather f l with
      | none => rw [hl] at h; cases h
      | some ys =>
        rw [hl] at h
        cases h
        rw [List.pairwise_cons] at h2
        refine (h1 a (List.mem_cons_self ..) xs ha).append
          (ih hl (fun a ha => h1 a (List.mem_cons_of_mem _ ha)) h2.2) ?_
        intro x hx y hy
        obtain ⟨a', h3, zs, h4, h5⟩ := mem_gather hl hy
        exact h2.1 a' h3 xs zs ha h4 x hx y h5

theorem nc_source {e e' : Edge} (h : e.source ≠ e'.source) : ¬ Clash N e e' := fun hc => h hc.1

theorem nc_handle {e e' : Edge} (h : e.kind.handle ≠ e'.kind.handle) : ¬ Clash N e e' :=
  fun hc => h hc.2.1

theorem nc_many {e e' : Edge} {k : Key} {x : Kind} (hs : e.source = .op k) (hk : N.kind k = some x)
    (hx : x ∈ manyKinds) (hh : e.kind.handle ≠ .dataStream)
    (ht : e.source = e'.source → e.target ≠ e'.target) : ¬ Clash N e e' := by
  rintro ⟨h1, _, h | h | h⟩
  · exact ht h1 h
  · exact hh h
  · exact h ⟨k, x, hs, hk, hx⟩

/-- A target that is not an input of a section. -/
def NotInner (t : Next) : Prop := ∀ a b, t ≠ .inner a b

theorem Drawn.notInner {near : Name → Option Op} {t : Next} (h : Drawn near t) : NotInner t := by
  rintro a b rfl; exact h

theorem DrawnOrDispose.notInner {near : Name → Option Op} {t : Next} (h : DrawnOrDispose near t) :
    NotInner t := by
  rcases h with h | rfl
  · exact h.notInner
  · intro a b h; cases h

theorem from_inj {ns : List Name} {t t' : Next} {i : Id} (h : N.fromNext ns t = some (some i))
    (h' : N.fromNext ns t' = some (some i)) (ht : NotInner t) (ht' : NotInner t') : t = t' := by
  cases t with
  | dispose => cases h
  | cancel => cases h
  | inner a b => exact absurd rfl (ht a b)
  | terminate =>
    simp only [Nodes.fromNext] at h
    split at h
    · cases h
      cases t' with
      | dispose => cases h'
      | cancel => cases h'
      | inner a b => exact absurd rfl (ht' a b)
      | terminate => rfl
      | op n =>
        simp only [Nodes.fromNext] at h'
        split at h' <;> cases h'
    · cases h
  | op n =>
    simp only [Nodes.fromNext] at h
    split at h
    · cases h
      cases t' with
      | dispose => cases h'
      | cancel => cases h'
      | inner a b => exact absurd rfl (ht' a b)
      | terminate =>
        simp only [Nodes.fromNext] at h'
        split at h' <;> cases h'
      | op n' =>
        simp only [Nodes.fromNext] at h'
        split at h'
        · cases h'; rfl
        · cases h'
    · cases h

theorem edgeTo_some {ns : List Name} {src : Id} {kd : EdgeKind} {t : Next} {xs : List Edge}
    (h : edgeTo N ns src kd t = some xs) {e : Edge} (he : e ∈ xs) :
    xs = [e] ∧ e.source = src ∧ e.kind = kd ∧ e.slot = none ∧
      N.fromNext ns t = some (some e.target) := by
  unfold edgeTo at h
  split at h
  · cases h
  · cases h; cases he
  · rename_i i hi
    cases h
    rw [List.mem_singleton] at he
    subst he
    exact ⟨rfl, rfl, rfl, rfl, hi⟩

/-- One edge to a target that takes messages. -/
theorem good_edgeTo {ns : List Name} {src : Id} {kd : EdgeKind} {t : Next} {xs : List Edge}
    (hb : kd.buffer? = none) (hu : ∀ i, kd = .unzip i → i = 0)
    (ha : ∀ i, Allowed N ⟨src, i, kd, none⟩) (hsrc : Exists N src)
    (hd : DrawnOrDispose (fun n => N.get ⟨ns, n⟩) t) (hf : Fair (fun n => N.get ⟨ns, n⟩) t)
    (h : edgeTo N ns src kd t = some xs) : Good N xs := by
  have single : ∀ e ∈ xs, xs = [e] := fun e he => (edgeTo_some h he).1
  refine ⟨fun e he => ?_, ?_⟩
  · obtain ⟨_, h1, h2, h3, h4⟩ := edgeTo_some h he
    have he' : e = ⟨src, e.target, kd, none⟩ := by rw [← h1, ← h2, ← h3]
    rw [he']
    refine ⟨ha _, hsrc, ?_, ?_, rfl, hu, by rw [hb]; intro _ _ h; cases h⟩
    · simp only
      cases t with
      | op n =>
        simp only [Nodes.fromNext] at h4
        split at h4
        · rename_i hs
          simp only [Option.some.injEq] at h4
          rw [← h4]
          exact Option.isSome_iff_exists.1 hs
        · cases h4
      | terminate =>
        simp only [Nodes.fromNext] at h4
        split at h4
        · rename_i hs
          simp only [Option.some.injEq] at h4
          rw [← h4]
          exact hs
        · cases h4
      | dispose => cases h4
      | cancel => cases h4
      | inner a b => exact absurd rfl (hd.notInner a b)
    · simp only
      cases t with
      | op n =>
        simp only [Nodes.fromNext] at h4
        split at h4
        · rename_i hs
          simp only [Option.some.injEq] at h4
          rw [← h4]
          obtain ⟨o, ho⟩ := Option.isSome_iff_exists.1 hs
          refine ⟨o.body.kind, by simp [Nodes.kind, ho], ?_⟩
          simp only [hb, Option.isSome_none, Bool.false_eq_true, if_false]
          exact hf o ho
        · cases h4
      | terminate =>
        simp only [Nodes.fromNext] at h4
        split at h4
        · simp only [Option.some.injEq] at h4
          rw [← h4]
          exact hb
        · cases h4
      | dispose => cases h4
      | cancel => cases h4
      | inner a b => exact absurd rfl (hd.notInner a b)
  · cases xs with
    | nil => exact .nil
    | cons e l =>
      have := single e (List.mem_cons_self ..)
      rw [this]
      exact List.pairwise_singleton ..

theorem entries_mem {α : Type} {l : List α} {i j : Nat} {a : α} (h : (j, a) ∈ entries i l) : a ∈ l := by
  induction l generalizing i with
  | nil => cases h
  | cons x l ih =>
    simp only [entries, List.mem_cons, Prod.mk.injEq] at h
    rcases h with ⟨_, rfl⟩ | h
    · exact List.mem_cons_self ..
    · exact List.mem_cons_of_mem _ (ih h)

theorem entries_pairwise {α : Type} {R : α → α → Prop} {l : List α} (h : l.Pairwise R) (i : Nat) :
    (entries i l).Pairwise fun a b => R a.2 b.2 := by
  induction h generalizing i with
  | nil => exact .nil
  | cons h1 _ ih =>
    simp only [entries]
    refine List.pairwise_cons.2 ⟨fun p hp => ?_, ih _⟩
    exact h1 _ (entries_mem (j := p.1) (a := p.2) hp)

theorem bufferEdge_some {k : Key} {kd : EdgeKind} {t : Next} {xs : List Edge}
    (h : bufferEdge N k kd t = some xs) {e : Edge} (he : e ∈ xs) :
    xs = [e] ∧ e.target = .op k ∧ e.kind = kd ∧ e.slot = none ∧
      N.fromNext k.ns t = some (some e.source) := by
  unfold bufferEdge at h
  split at h
  · cases h
  · cases h; cases he
  · rename_i i hi
    cases h
    rw [List.mem_singleton] at he
    subst he
    exact ⟨rfl, rfl, rfl, rfl, hi⟩

theorem IsBuffer.notInner {near : Name → Option Op} {t : Next} (h : IsBuffer near t) : NotInner t := by
  obtain ⟨n, o, rfl, _⟩ := h
  intro a b h; cases h

/-- The edge of a buffer. -/
theorem buffer_source {k : Key} {t : Next} {e : Edge} (ht : IsBuffer (fun n => N.get ⟨k.ns, n⟩) t)
    (h : N.fromNext k.ns t = some (some e.source)) :
    ∃ k', e.source = .op k' ∧ N.kind k' = some .buffer ∧ Exists N e.source := by
  obtain ⟨n, o, rfl, h1, h2⟩ := ht
  simp only at h1
  simp only [Nodes.fromNext, h1, Option.isSome_some, if_true, Option.some.injEq] at h
  refine ⟨⟨k.ns, n⟩, h.symm, by simp [Nodes.kind, h1, h2, Body.kind], ?_⟩
  rw [← h]
  exact ⟨o, h1⟩

theorem good_bufferEdge {k : Key} {o : Op} (hk : N.get k = some o)
    (hkind : o.body.kind ∈ [Kind.join, .listen, .access]) {kd : EdgeKind} {t : Next} {xs : List Edge}
    (hb : kd.buffer?.isSome)
    (hf : ∀ id f, kd.buffer? = some (id, f) → f ≠ .unset → o.body.kind = .join)
    (ht : IsBuffer (fun n => N.get ⟨k.ns, n⟩) t) (h : bufferEdge N k kd t = some xs) : Good N xs := by
  refine ⟨fun e he => ?_, ?_⟩
  · obtain ⟨_, h1, h2, h3, h4⟩ := bufferEdge_some h he
    obtain ⟨k', h5, h6, h7⟩ := buffer_source ht h4
    refine ⟨?_, h7, ?_, ?_, h3, ?_, ?_⟩
    · simp only [Allowed, h5]
      refine ⟨_, h6, ?_⟩
      rw [h2]
      cases kd <;> first | rfl | cases hb
    · rw [h1]; exact ⟨o, hk⟩
    · rw [h1]
      refine ⟨o.body.kind, by simp [Nodes.kind, hk], ?_⟩
      rw [h2, if_pos hb]
      exact hkind
    · intro i hi
      rw [h2] at hi
      rw [hi] at hb
      cases hb
    · intro id f hx hne
      rw [h2] at hx
      exact ⟨k, h1, by simp [Nodes.kind, hk, hf id f hx hne]⟩
  · cases xs with
    | nil => exact .nil
    | cons e l =>
      rw [(bufferEdge_some h (List.mem_cons_self ..)).1]
      exact List.pairwise_singleton ..

/-- Only a join says how its buffers are read. -/
theorem fetchType_join {b : Body} {id : BufId} (h : fetchType b id ≠ .unset) : b.kind = .join := by
  cases b <;> first | rfl | exact absurd rfl h

/-- The edges of all buffers of an operation. -/
theorem good_buffers {k : Key} {o : Op} (hk : N.get k = some o)
    (hkind : o.body.kind ∈ [Kind.join, .listen, .access]) {s : Sel} {es : List Edge}
    (hs : BuffersOk (fun n => N.get ⟨k.ns, n⟩) s) (ha : s.Apart)
    (h : bufferEdges N k o.body s = some es) :
    Good N es ∧ ∀ e ∈ es, ∃ k', e.source = .op k' ∧ N.kind k' = some .buffer := by
  have cross : ∀ {kd kd' : EdgeKind} {t t' : Next} {xs ys : List Edge}, t ≠ t' →
      kd.buffer?.isSome → 
      IsBuffer (fun n => N.get ⟨k.ns, n⟩) t → IsBuffer (fun n => N.get ⟨k.ns, n⟩) t' →
      bufferEdge N k kd t = some xs → bufferEdge N k kd' t' = some ys →
      ∀ x ∈ xs, ∀ y ∈ ys, ¬ Clash N x y := by
    intro kd kd' t t' xs ys hne _ ht ht' hx hy x hxm y hym
    obtain ⟨_, _, _, _, h4⟩ := bufferEdge_some hx hxm
    obtain ⟨_, _, _, _, h4'⟩ := bufferEdge_some hy hym
    refine nc_source fun e => hne ?_
    rw [← e] at h4'
    exact from_inj h4 h4' ht.notInner ht'.notInner
  cases s with
  | arr l =>
    simp only [bufferEdges] at h
    refine ⟨Good.gather h ?_ ?_, ?_⟩
    · rintro ⟨i, t⟩ hm xs hx
      obtain ⟨b, rfl, hb⟩ := hs t (entries_mem hm)
      refine good_bufferEdge hk hkind rfl ?_ hb hx
      intro id f hx hne
      simp only [EdgeKind.buffer?, Option.some.injEq, Prod.mk.injEq] at hx
      exact fetchType_join (hx.2 ▸ hne)
    · refine (List.Pairwise.and_mem.1 (entries_pairwise (R := (· ≠ ·)) ha 0)).imp ?_
      rintro ⟨i, t⟩ ⟨j, t'⟩ ⟨hm, hm', hne⟩ xs ys hx hy
      obtain ⟨b, rfl, hb⟩ := hs t (entries_mem hm)
      obtain ⟨b', rfl, hb'⟩ := hs t' (entries_mem hm')
      exact cross (fun e => hne (by rw [e])) rfl hb hb' hx hy
    · intro e he
      obtain ⟨⟨i, t⟩, hm, xs, hx, hex⟩ := mem_gather h he
      obtain ⟨b, rfl, hb⟩ := hs t (entries_mem hm)
      obtain ⟨_, _, _, _, h4⟩ := bufferEdge_some hx hex
      obtain ⟨k', h5, h6, _⟩ := buffer_source hb h4
      exact ⟨k', h5, h6⟩
  | dict l =>
    simp only [bufferEdges] at h
    obtain ⟨_, _, hs⟩ := hs
    refine ⟨Good.gather h ?_ ?_, ?_⟩
    · rintro ⟨i, t⟩ hm xs hx
      refine good_bufferEdge hk hkind rfl ?_ (hs _ hm) hx
      intro id f hx hne
      simp only [EdgeKind.buffer?, Option.some.injEq, Prod.mk.injEq] at hx
      exact fetchType_join (hx.2 ▸ hne)
    · refine (List.Pairwise.and_mem.1 (List.pairwise_map.1 ha)).imp ?_
      rintro ⟨i, t⟩ ⟨j, t'⟩ ⟨hm, hm', hne⟩ xs ys hx hy
      exact cross hne rfl (hs _ hm) (hs _ hm') hx hy
    · intro e he
      obtain ⟨⟨i, t⟩, hm, xs, hx, hex⟩ := mem_gather h he
      obtain ⟨_, _, _, _, h4⟩ := bufferEdge_some hx hex
      obtain ⟨k', h5, h6, _⟩ := buffer_source (hs _ hm) h4
      exact ⟨k', h5, h6⟩

end

end Verif.Editor
