import Verif.Streams.Lemmas

/- Helpers for the properties: buffers, redirections, availability. -/
namespace Verif.Streams

open Verif.Input

variable {A : Type}

/-- The items that go out of the buffers of a pack: stream after stream, the items of one
stream in the order in which they were put in. -/
def bufferOuts (regs : Regs A) (pack : Pack A) (sends : List (Nat × Item A)) : List (Out A) :=
  pack.zipIdx.flatMap fun p =>
    (sends.filter fun x => x.1 = p.2).flatMap fun x => route regs p.1 x.2

theorem filled_sends (pack : Pack A) (m : Option TargetMap) (sends : List (Nat × Item A)) :
    ((bufferSends (fresh pack m) sends).flatMap fun b => b.items.map fun i => (b.port, i)) =
      ((pack.zipIdx.flatMap fun p =>
        ((sends.filter fun x => x.1 = p.2).map fun x => (p.1, x.2))).map
          fun x => (x.1.port m, x.2)) := by
  rw [filled_eq]
  simp [List.flatMap_map, List.map_flatMap]
  rfl

theorem empties_filled (pack : Pack A) (m : Option TargetMap) (sends : List (Nat × Item A)) :
    ∀ k, empties k (((pack.zipIdx k)).map fun p =>
      (⟨p.1.port m, (sends.filter fun x => x.1 = p.2).map (·.2), false⟩ : Buffer A)) =
    (List.range' k pack.length).filter fun j => !sends.any fun x => x.1 = j := by
  induction pack with
  | nil => intro k; rfl
  | cons s pack ih =>
    intro k
    simp only [List.zipIdx_cons, List.map_cons, empties, ih (k + 1), List.length_cons,
      List.range'_succ, List.filter_cons]
    by_cases h : ∃ x, x ∈ sends ∧ x.1 = k
    · obtain ⟨x, hx, hk⟩ := h
      have h1 : (sends.any fun x => x.1 = k) = true := by
        rw [List.any_eq_true]; exact ⟨x, hx, by simpa using hk⟩
      have h2 : (List.map (·.2) (sends.filter fun x => x.1 = k)).isEmpty = false := by
        rw [List.isEmpty_eq_false_iff]
        intro hnil
        rw [List.map_eq_nil_iff, List.filter_eq_nil_iff] at hnil
        exact hnil x hx (by simpa using hk)
      simp [h1, h2]
    · have h1 : (sends.any fun x => x.1 = k) = false := by
        rw [List.any_eq_false]
        intro x hx hk
        exact h ⟨x, hx, by simpa using hk⟩
      have h2 : (List.map (·.2) (sends.filter fun x => x.1 = k)).isEmpty = true := by
        rw [List.isEmpty_iff, List.map_eq_nil_iff, List.filter_eq_nil_iff]
        intro x hx hk
        exact h ⟨x, hx, by simpa using hk⟩
      simp [h1, h2]

theorem typeTarget_split (t : Ty) (l r : Regs A) (s : Stream A) (x : Nat)
    (hl : ∀ y, y ∈ l → clash y.1 s = false)
    (hs : s.declared = t) (hn : ∀ n e, s ≠ .named n e) :
    typeTarget t (l ++ (s, x) :: r) = some x := by
  rw [typeTarget_append]
  have : typeTarget t l = none := by
    induction l with
    | nil => rfl
    | cons y l ih =>
      obtain ⟨u, z⟩ := y
      have h1 := hl (u, z) (by simp)
      have h2 := ih (fun y hy => hl y (by simp [hy]))
      cases s with
      | named n e => exact absurd rfl (hn n e)
      | anon e =>
        cases u with
        | anon f =>
          have : ¬ f.output = t := by simpa [clash, ← hs, Stream.declared] using h1
          simp [typeTarget, this, h2]
        | named n f => simp [typeTarget, h2]
        | dyn f =>
          have : ¬ Ty.named f.output = t := by simpa [clash, ← hs, Stream.declared] using h1
          simp [typeTarget, this, h2]
      | dyn e =>
        cases u with
        | anon f =>
          have : ¬ f.output = t := by simpa [clash, ← hs, Stream.declared] using h1
          simp [typeTarget, this, h2]
        | named n f => simp [typeTarget, h2]
        | dyn f =>
          have : ¬ Ty.named f.output = t := by simpa [clash, ← hs, Stream.declared] using h1
          simp [typeTarget, this, h2]
  rw [this]
  cases s with
  | named n e => exact absurd rfl (hn n e)
  | anon e => simp [typeTarget, ← hs, Stream.declared]
  | dyn e => simp [typeTarget, ← hs, Stream.declared]

theorem nameTarget_split (n : String) (e : Effect A) (l r : Regs A) (x : Nat)
    (hl : ∀ y, y ∈ l → clash y.1 (.named n e) = false) :
    nameTarget n (l ++ (.named n e, x) :: r) = some (e.output, x) := by
  rw [nameTarget_append]
  have : nameTarget n l = none := by
    induction l with
    | nil => rfl
    | cons y l ih =>
      obtain ⟨u, z⟩ := y
      have h1 := hl (u, z) (by simp)
      have h2 := ih (fun y hy => hl y (by simp [hy]))
      cases u with
      | named m f =>
        have : ¬ m = n := by simpa [clash] using h1
        simp [nameTarget, this, h2]
      | anon f => simp [nameTarget, h2]
      | dyn f => simp [nameTarget, h2]
  rw [this]; simp [nameTarget]

theorem inbox_cons_takes {w : World A} {source : Nat} {t : Ty} {i : Inp Nat (Val A)}
    {rest : List (Inp Nat (Val A))} (h : w.inbox source t = i :: rest) :
    ∃ n q, w.nodes source = some n ∧ n.stores t = some (q ++ [i]) ∧ q.reverse = rest := by
  unfold World.inbox at h
  cases hn : w.nodes source with
  | none => rw [hn] at h; cases h
  | some n =>
    rw [hn] at h
    simp only at h
    cases hq : n.stores t with
    | none => rw [hq] at h; cases h
    | some q =>
      rw [hq] at h
      simp only [Option.getD_some] at h
      refine ⟨n, rest.reverse, rfl, ?_, by simp⟩
      rw [hq]
      have := congrArg List.reverse h
      simpa using this

/-- What taking the oldest input does. -/
structure Took (w w' : World A) (source : Nat) (t : Ty) : Prop where
  inbox : ∀ e u, w'.inbox e u =
    if e = source ∧ u = t then (w.inbox e u).tail else w.inbox e u
  queue : w'.queue = w.queue
  takes : ∀ e u, w'.takes e u = w.takes e u
  rest : ∀ e, w'.rest e = w.rest e
  active : w'.active = w.active

theorem take_spec {w : World A} {source : Nat} {t : Ty} {i : Inp Nat (Val A)}
    {rest : List (Inp Nat (Val A))} (h : w.inbox source t = i :: rest) :
    ∃ w', w.take source t = (w', .ok i) ∧ Took w w' source t := by
  obtain ⟨n, q, hn, hq, hr⟩ := inbox_cons_takes h
  refine ⟨w.setNode source (n.setStore t (some q)), ?_, ?_⟩
  · simp [World.take, hn, takeInput, tryTakeInput, Node.at, hq]
  · constructor
    · intro e u
      by_cases he : e = source
      · subst he
        by_cases hu : u = t
        · subst hu
          rw [h, if_pos ⟨rfl, rfl⟩, List.tail_cons]
          simp [World.inbox, World.setNode, Node.setStore, hr]
        · simp [World.inbox, World.setNode, Node.setStore, hu, hn]
      · simp [World.inbox, World.setNode, he]
    · rfl
    · intro e u
      by_cases he : e = source
      · subst he
        by_cases hu : u = t
        · subst hu; simp [World.takes, World.setNode, Node.setStore, hn, hq]
        · simp [World.takes, World.setNode, Node.setStore, hu, hn]
      · simp [World.takes, World.setNode, he]
    · intro e
      by_cases he : e = source
      · subst he; simp [World.rest, World.setNode, Node.setStore, hn]
      · simp [World.rest, World.setNode, he]
    · rfl

theorem rest_bind {β : Type} {w w' : World A} (h : ∀ e, w'.rest e = w.rest e)
    (f : Node A → Option β) (hf : ∀ n : Node A, f { n with stores := fun _ => none } = f n)
    (e : Nat) : (w'.nodes e).bind f = (w.nodes e).bind f := by
  have := congrArg (fun o => o.bind f) (h e)
  simp only [World.rest] at this
  cases h1 : w'.nodes e <;> cases h2 : w.nodes e <;>
    simp_all

theorem exitOf_took {w w' : World A} {source : Nat} {t : Ty} (h : Took w w' source t)
    (a b : Nat) : w'.exitOf a b = w.exitOf a b := by
  unfold World.exitOf
  simp only [rest_bind h.rest (·.scope) (fun _ => rfl), rest_bind h.rest (·.exits) (fun _ => rfl),
    rest_bind h.rest (·.map) (fun _ => rfl)]

/-- Consuming the oldest input of `source` and then sending. -/
structure Redirected (w w' : World A) (source : Nat) (t : Ty) (session : Nat)
    (out : List (Out A)) : Prop where
  inbox : ∀ e u, w'.inbox e u =
    (if e = source ∧ u = t then (w.inbox e u).tail else w.inbox e u) ++
    (out.filter fun o => o.1 = e ∧ o.2.1 = u ∧ w.active session ∧ w.takes e u).map
      fun o => ⟨session, o.2.2⟩
  queue : w'.queue = w.queue ++
    (out.filter fun o => w.active session && (w.takes o.1 o.2.1 || w.isUnused o.1)).map (·.1)
  rest : ∀ e, w'.rest e = w.rest e

theorem Took.sent {w w' w'' : World A} {source : Nat} {t : Ty} {session : Nat}
    {out : List (Out A)} (h : Took w w' source t) (h' : Sent w' w'' session out) :
    Redirected w w'' source t session out where
  inbox := by
    intro e u
    rw [h'.inbox, h.inbox, h.active]
    simp only [h.takes]
  queue := by
    rw [h'.queue, h.queue, h.active]
    simp only [h.takes, World.isUnused, h.rest]
  rest := fun e => (h'.rest e).trans (h.rest e)

/-- The stream of which a workflow redirection passes the items on. -/
def Redirect.stream : Redirect A → Option (Stream A)
  | .static name e => some (.named name e)
  | .dynamic e => some (.dyn e)
  | .anonymous e => some (.anon e)
  | .scoped _ _ => none

/-- What waits at a redirection, read as an item of its stream. -/
def Redirect.item : Redirect A → Val A → Option (Item A)
  | .dynamic _, .named name v => some (name, v)
  | .dynamic _, .atom _ _ => none
  | _, v => some ("", v)

theorem typeTarget_declared {t : Ty} {regs : Regs A} {x : Nat} (h : typeTarget t regs = some x) :
    ∃ s, (s, x) ∈ regs ∧ s.declared = t := by
  induction regs with
  | nil => cases h
  | cons r regs ih =>
    obtain ⟨s, y⟩ := r
    have up : typeTarget t regs = some x → ∃ s', (s', x) ∈ (s, y) :: regs ∧ s'.declared = t := by
      intro h
      obtain ⟨s', hm, hd⟩ := ih h
      exact ⟨s', by simp [hm], hd⟩
    cases s with
    | anon e =>
      simp only [typeTarget] at h
      split at h
      · cases h; exact ⟨.anon e, by simp, by assumption⟩
      · exact up h
    | named n e => exact up h
    | dyn e =>
      simp only [typeTarget] at h
      split at h
      · cases h; exact ⟨.dyn e, by simp, by assumption⟩
      · exact up h

theorem nameTarget_declared {n : String} {regs : Regs A} {p : Ty × Nat}
    (h : nameTarget n regs = some p) : ∃ s, (s, p.2) ∈ regs ∧ s.declared = p.1 := by
  induction regs with
  | nil => cases h
  | cons r regs ih =>
    obtain ⟨s, y⟩ := r
    have up : nameTarget n regs = some p →
        ∃ s', (s', p.2) ∈ (s, y) :: regs ∧ s'.declared = p.1 := by
      intro h
      obtain ⟨s', hm, hd⟩ := ih h
      exact ⟨s', by simp [hm], hd⟩
    cases s with
    | anon e => exact up h
    | named k e =>
      simp only [nameTarget] at h
      split at h
      · cases h; exact ⟨.named k e, by simp, rfl⟩
      · exact up h
    | dyn e => exact up h

/-- The message of an item: of the output type of the stream, or a named value of it. -/
theorem routeNamed_declared {regs : Regs A} {t : Ty} {n : String} {o : Val A} {m : Out A}
    (h : m ∈ routeNamed regs t n o) :
    (∃ s, (s, m.1) ∈ regs ∧ s.declared = m.2.1) ∧
      (m.2 = (t, o) ∨ m.2 = (.named t, .named n o)) ∧ routeNamed regs t n o = [m] := by
  unfold routeNamed at h ⊢
  cases hn : (nameTarget n regs).filter fun p => p.1 = t with
  | some p =>
    rw [hn] at h
    simp only [List.mem_singleton] at h
    subst h
    obtain ⟨h1, h2⟩ := Option.filter_eq_some_iff.1 hn
    obtain ⟨s, hs, hd⟩ := nameTarget_declared h1
    exact ⟨⟨s, hs, hd.trans (by simpa using h2)⟩, .inl rfl, rfl⟩
  | none =>
    rw [hn] at h
    simp only at h ⊢
    cases h1 : typeTarget (.named t) regs with
    | some x =>
      rw [h1] at h
      simp only [List.mem_singleton] at h
      subst h
      exact ⟨typeTarget_declared h1, .inr rfl, rfl⟩
    | none =>
      rw [h1] at h
      simp only at h ⊢
      cases h2 : typeTarget t regs with
      | some x =>
        rw [h2] at h
        simp only [List.mem_singleton] at h
        subst h
        exact ⟨typeTarget_declared h2, .inl rfl, rfl⟩
      | none => rw [h2] at h; cases h

theorem Sent.typed {w w' : World A} {session : Nat} {out : List (Out A)}
    (h : Sent w w' session out) (hw : w.Typed) (ho : ∀ m, m ∈ out → m.2.2.ty = m.2.1) :
    w'.Typed := by
  intro e t i hi
  rw [h.inbox] at hi
  rcases List.mem_append.1 hi with hi | hi
  · exact hw e t i hi
  · obtain ⟨m, hm, rfl⟩ := List.mem_map.1 hi
    obtain ⟨hm, hc⟩ := List.mem_filter.1 hm
    simp only [decide_eq_true_eq] at hc
    exact (ho m hm).trans hc.2.1

theorem foldl_anonymous (p : Pack A) : ∀ (a : Avail) (t : Ty),
    t ∈ (p.foldl Avail.add a).anonymous ↔
      t ∈ a.anonymous ∨ ∃ s, s ∈ p ∧ (∀ n e, s ≠ .named n e) ∧ s.declared = t := by
  induction p with
  | nil => intro a t; simp
  | cons s p ih =>
    intro a t
    rw [List.foldl_cons, ih]
    cases s with
    | anon e =>
      simp only [Avail.add, List.mem_cons]
      constructor
      · rintro ((h | h) | ⟨s, hs, hn, hd⟩)
        · exact .inr ⟨.anon e, by simp, nofun, h.symm⟩
        · exact .inl h
        · exact .inr ⟨s, by simp [hs], hn, hd⟩
      · rintro (h | ⟨s, hs | hs, hn, hd⟩)
        · exact .inl (.inr h)
        · subst hs; exact .inl (.inl hd.symm)
        · exact .inr ⟨s, hs, hn, hd⟩
    | named n e =>
      have hsame : (a.addNamed n e.output).anonymous = a.anonymous := by
        unfold Avail.addNamed; split <;> rfl
      simp only [Avail.add, hsame, List.mem_cons]
      constructor
      · rintro (h | ⟨s, hs, hn, hd⟩)
        · exact .inl h
        · exact .inr ⟨s, .inr hs, hn, hd⟩
      · rintro (h | ⟨s, hs | hs, hn, hd⟩)
        · exact .inl h
        · exact absurd hs (hn n e)
        · exact .inr ⟨s, hs, hn, hd⟩
    | dyn e =>
      simp only [Avail.add, List.mem_cons]
      constructor
      · rintro ((h | h) | ⟨s, hs, hn, hd⟩)
        · exact .inr ⟨.dyn e, by simp, nofun, h.symm⟩
        · exact .inl h
        · exact .inr ⟨s, by simp [hs], hn, hd⟩
      · rintro (h | ⟨s, hs | hs, hn, hd⟩)
        · exact .inl (.inr h)
        · subst hs; exact .inl (.inl hd.symm)
        · exact .inr ⟨s, hs, hn, hd⟩

theorem addNamed_avail_find (a : Avail) (n k : String) (t : Ty) :
    ((a.addNamed n t).named.find? fun p => p.1 = k) =
      (a.named.find? fun p => p.1 = k).or (if n = k then some (n, t) else none) := by
  unfold Avail.addNamed
  cases h : a.named.find? fun p => p.1 = n with
  | none =>
    simp only [List.find?_append]
    by_cases hnk : n = k
    · simp [hnk]
    · simp [hnk]
  | some p =>
    by_cases hnk : n = k
    · subst hnk; simp [h]
    · simp [hnk]

/-- The entry that a stream makes for the name `k`. -/
def nameKey (k : String) : Stream A → Option (String × Ty)
  | .named n e => if n = k then some (n, e.output) else none
  | _ => none

/-- The names of a pack with their types, first come first. -/
theorem foldl_named (p : Pack A) : ∀ (a : Avail) (k : String),
    ((p.foldl Avail.add a).named.find? fun q => q.1 = k) =
      (a.named.find? fun q => q.1 = k).or
        (p.findSome? (nameKey k)) := by
  induction p with
  | nil => intro a k; simp
  | cons s p ih =>
    intro a k
    rw [List.foldl_cons, ih]
    cases s with
    | anon e => simp [Avail.add, List.findSome?_cons, nameKey]
    | dyn e => simp [Avail.add, List.findSome?_cons, nameKey]
    | named n e =>
      simp only [Avail.add, addNamed_avail_find, List.findSome?_cons, nameKey]
      by_cases h : n = k
      · cases a.named.find? fun q => q.1 = k <;> simp [h]
      · simp [h]

theorem of_anonymous (p : Pack A) (t : Ty) :
    (Avail.of p).anonymous.contains t = true ↔
      ∃ s, s ∈ p ∧ (∀ n e, s ≠ .named n e) ∧ s.declared = t := by
  rw [List.contains_iff_mem, Avail.of, foldl_anonymous]; simp

theorem of_named_mem {p : Pack A} {k : String} {q : String × Ty}
    (h : ((Avail.of p).named.find? fun q => q.1 = k) = some q) :
    ∃ e, .named k e ∈ p ∧ q = (k, e.output) := by
  rw [Avail.of, foldl_named] at h
  simp only [List.find?_nil, Option.none_or] at h
  obtain ⟨s, hs, hk⟩ := List.exists_of_findSome?_eq_some h
  cases s with
  | anon e => simp [nameKey] at hk
  | dyn e => simp [nameKey] at hk
  | named n e =>
    simp only [nameKey] at hk
    split at hk
    · rename_i hnk
      subst hnk
      simp only [Option.some.injEq] at hk
      exact ⟨e, hs, hk.symm⟩
    · cases hk

theorem of_named_find {p : Pack A} (hd : DistinctNames p) {k : String} {e : Effect A}
    (h : .named k e ∈ p) :
    ((Avail.of p).named.find? fun q => q.1 = k) = some (k, e.output) := by
  rw [Avail.of, foldl_named]
  simp only [List.find?_nil, Option.none_or]
  induction p with
  | nil => cases h
  | cons s p ih =>
    have hd' : DistinctNames p := by
      unfold DistinctNames at hd ⊢
      rw [List.filterMap_cons] at hd
      cases s with
      | anon f => exact hd
      | dyn f => exact hd
      | named n f => exact (List.nodup_cons.1 hd).2
    rcases List.mem_cons.1 h with h' | h'
    · subst h'; simp [nameKey]
    · cases s with
      | anon f => simp only [List.findSome?_cons, nameKey]; exact ih hd' h'
      | dyn f => simp only [List.findSome?_cons, nameKey]; exact ih hd' h'
      | named n f =>
        have hne : ¬ n = k := by
          intro hnk
          subst hnk
          unfold DistinctNames at hd
          rw [List.filterMap_cons] at hd
          apply (List.nodup_cons.1 hd).1
          rw [List.mem_filterMap]
          exact ⟨.named n e, h', rfl⟩
        simp only [List.findSome?_cons, nameKey, hne, if_false]
        exact ih hd' h'

theorem feeds_of_declared {s s' : Stream A} (hs : ∀ n e, s ≠ .named n e)
    (hs' : ∀ n e, s' ≠ .named n e) (h : s.declared = s'.declared) : Feeds s s' := by
  refine ⟨"", fun v o hr => ?_⟩
  cases s with
  | named n e => exact absurd rfl (hs n e)
  | anon e =>
    simp only [Stream.effect] at hr
    cases s' with
    | named n e => exact absurd rfl (hs' n e)
    | anon f =>
      have : f.output = e.output := h.symm
      simp [route, Stream.effect, hr, typeTarget, this]
    | dyn f =>
      have : Ty.named f.output = e.output := h.symm
      simp [route, Stream.effect, hr, typeTarget, this]
  | dyn e =>
    simp only [Stream.effect] at hr
    cases s' with
    | named n e => exact absurd rfl (hs' n e)
    | anon f =>
      have : f.output = Ty.named e.output := h.symm
      simp [route, Stream.effect, hr, typeTarget, routeNamed, nameTarget, this]
    | dyn f =>
      have : f.output = e.output := by simpa [Stream.declared] using h.symm
      simp [route, Stream.effect, hr, typeTarget, routeNamed, nameTarget, this]

theorem feeds_named {n : String} {e f : Effect A} (h : f.output = e.output) :
    Feeds (.named n f) (.named n e) := by
  refine ⟨"", fun v o hr => ?_⟩
  simp only [Stream.effect] at hr
  simp [route, Stream.effect, hr, routeNamed, nameTarget, h, Option.filter]

theorem streamCast_ok_iff (p q : Pack A) : streamCast p q = .ok () ↔
    (∀ t, t ∈ (Avail.of p).anonymous → t ∈ (Avail.of q).anonymous) ∧
    (∀ r, r ∈ (Avail.of p).named →
      (match (Avail.of q).named.find? fun x => x.1 = r.1 with
        | some x => r.2 = x.2
        | none => .named r.2 ∈ (Avail.of q).anonymous)) := by
  unfold streamCast Avail.canCastTo
  constructor
  · intro h
    dsimp only at h
    split at h
    · cases h
    · rename_i hc
      simp only [Bool.or_eq_true, Bool.not_eq_true', List.isEmpty_eq_false_iff, not_or,
        Classical.not_not] at hc
      obtain ⟨h1, h2⟩ := hc
      constructor
      · intro t ht
        have := List.filter_eq_nil_iff.1 h1 t ht
        simpa using this
      · intro r hr
        have := List.filter_eq_nil_iff.1 h2 r hr
        cases hf : (Avail.of q).named.find? fun x => x.1 = r.1 <;> simp_all
  · rintro ⟨h1, h2⟩
    have e1 : ((Avail.of p).anonymous.filter fun t => !(Avail.of q).anonymous.contains t) = [] := by
      rw [List.filter_eq_nil_iff]
      intro t ht
      simpa using h1 t ht
    have e2 : ((Avail.of p).named.filter fun r =>
        match (Avail.of q).named.find? fun x => x.1 = r.1 with
        | some x => r.2 != x.2
        | none => !(Avail.of q).anonymous.contains (.named r.2)) = [] := by
      rw [List.filter_eq_nil_iff]
      intro r hr
      have := h2 r hr
      cases hf : (Avail.of q).named.find? fun x => x.1 = r.1 <;> simp_all
    dsimp only
    rw [e1]
    erw [e2]
    rfl

theorem named_nodup_find (p : Pack A) :
    ∀ r, r ∈ (Avail.of p).named → ((Avail.of p).named.find? fun x => x.1 = r.1) = some r := by
  have key : ∀ (p : Pack A) (a : Avail),
      (∀ r, r ∈ a.named → (a.named.find? fun x => x.1 = r.1) = some r) →
      ∀ r, r ∈ (p.foldl Avail.add a).named →
        ((p.foldl Avail.add a).named.find? fun x => x.1 = r.1) = some r := by
    intro p
    induction p with
    | nil => intro a h; exact h
    | cons s p ih =>
      intro a h
      rw [List.foldl_cons]
      apply ih
      cases s with
      | anon e => exact h
      | dyn e => exact h
      | named n e =>
        intro r hr
        simp only [Avail.add] at hr ⊢
        rw [addNamed_avail_find]
        unfold Avail.addNamed at hr
        cases hf : a.named.find? fun p => p.1 = n with
        | some q =>
          rw [hf] at hr
          rw [h r hr]; rfl
        | none =>
          rw [hf] at hr
          simp only [List.mem_append, List.mem_singleton] at hr
          rcases hr with hr | rfl
          · rw [h r hr]; rfl
          · simp [hf]
  exact key p {} (by intro r hr; cases hr)

/-- The items of a session waiting at the entity of a redirection. -/
def pendingOf (n : Node A) (t : Ty) (session : Nat) : List (Inp Nat (Val A)) :=
  ((n.stores t).getD []).filter fun i => i.session = session

/-- The redirections whose pending items are looked at with the right type. -/
def Redirect.Regular : Redirect A → Prop
  | .static _ _ => False
  | .dynamic _ => True
  | .anonymous _ => True
  | .scoped _ e => e.self = e.input

theorem Ty.named_ne (t : Ty) : Ty.named t ≠ t := by
  intro h
  have := congrArg sizeOf h
  simp at this

end Verif.Streams
