import Verif.Streams.Spec

namespace Verif.Streams

open Verif.Input

variable {A : Type}

/-! ### Sending -/

theorem Sent.refl (w : World A) (s : Nat) : Sent w w s [] := by
  constructor <;> simp

theorem Sent.trans {w w' w'' : World A} {s o o'} (h : Sent w w' s o) (h' : Sent w' w'' s o') :
    Sent w w'' s (o ++ o') where
  inbox := by
    intro e t
    rw [h'.inbox, h.inbox, h.active]
    simp [h.takes, List.append_assoc]
  queue := by
    rw [h'.queue, h.queue, h.active]
    simp only [h.takes, World.isUnused, h.rest, List.append_assoc, List.filter_append,
      List.map_append]
  takes := fun e t => (h'.takes e t).trans (h.takes e t)
  rest := fun e => (h'.rest e).trans (h.rest e)
  active := h'.active.trans h.active

/-- Sending in another session, for chains in which the session does not matter. -/
theorem Sent.congr {w w' : World A} {s o o'} (h : Sent w w' s o) (e : o = o') :
    Sent w w' s o' := e ▸ h

theorem Sent.report {w w' : World A} {s o} (h : Sent w w' s o) (src : Nat) (x : Option Err) :
    Sent w (w'.report src x) s o := by
  cases x with
  | none => exact h
  | some x =>
    cases x with
    | notReady => exact h
    | broken => exact ⟨h.inbox, h.queue, h.takes, h.rest, h.active⟩

theorem give_sent (w : World A) (x s : Nat) (t : Ty) (v : Val A) :
    Sent w (w.give x s t v).1 s [(x, t, v)] := by
  have nothing : ∀ (w' : World A), (∀ e, w'.nodes e = w.nodes e) → w'.active = w.active →
     
      w'.queue = w.queue ++ (if w.active s ∧ w.isUnused x then [x] else []) →
      (w.active s = false ∨ w.takes x t = false) → Sent w w' s [(x, t, v)] := by
    intro w' hn ha hqu hno
    constructor
    · intro e u
      have : ([((x, t, v) : Out A)].filter fun o =>
          o.1 = e ∧ o.2.1 = u ∧ w.active s ∧ w.takes e u) = [] := by
        simp only [List.filter_eq_nil_iff, List.mem_singleton, forall_eq, decide_eq_true_eq]
        rintro ⟨h1, h2, h3, h4⟩
        subst h1 h2
        rcases hno with h | h
        · rw [h] at h3; cases h3
        · rw [h] at h4; cases h4
      rw [this]
      simp [World.inbox, hn]
    · rw [hqu]
      have : ([((x, t, v) : Out A)].filter fun o =>
          w.active s && (w.takes o.1 o.2.1 || w.isUnused o.1)).map (·.1) =
          (if w.active s ∧ w.isUnused x then [x] else []) := by
        rcases hno with h | h
        · simp [h]
        · cases h1 : w.active s <;> cases h2 : w.isUnused x <;> simp [h, h1, h2]
      rw [this]
    · intro e u; simp [World.takes, hn]
    · intro e; simp [World.rest, hn]
    · exact ha
  unfold World.give
  cases hx : w.nodes x with
  | none => exact nothing w (fun _ => rfl) rfl (by simp [World.isUnused, World.rest, hx]) (.inr (by simp [World.takes, hx]))
  | some n =>
    have same : ∀ e, (w.setNode x (n.setStore t (n.stores t))).nodes e = w.nodes e := by
      intro e
      by_cases h : e = x
      · subst h
        have : n.setStore t (n.stores t) = n := by
          simp only [Node.setStore]
          congr
          funext u
          by_cases hu : u = t
          · simp [hu]
          · simp [hu]
        simp [World.setNode, this, hx]
      · simp [World.setNode, h]
    by_cases ha : w.active s
    · cases hq : n.stores t with
      | some q =>
        simp only [giveInput, sneakInput, Node.at, ha, hq]
        constructor
        · intro e u
          by_cases he : e = x
          · subst he
            by_cases hu : u = t
            · subst hu
              simp [World.inbox, World.setNode, Node.setStore, hx, hq, ha, World.takes]
            · have hu' : ¬ t = u := fun h => hu h.symm
              simp [World.inbox, World.setNode, Node.setStore, hx, hu, hu']
          · have he' : ¬ x = e := fun h => he h.symm
            simp [World.inbox, World.setNode, he, he']
        · simp [World.setNode, ha, World.takes, hx, hq]
        · intro e u
          by_cases he : e = x
          · subst he
            by_cases hu : u = t
            · subst hu; simp [World.takes, World.setNode, Node.setStore, hx, hq]
            · simp [World.takes, World.setNode, Node.setStore, hx, hu]
          · simp [World.takes, World.setNode, he]
        · intro e
          by_cases he : e = x
          · subst he; simp [World.rest, World.setNode, Node.setStore, hx]
          · simp [World.rest, World.setNode, he]
        · rfl
      | none =>
        have hno : w.active s = false ∨ w.takes x t = false := .inr (by simp [World.takes, hx, hq])
        rw [hq] at same
        by_cases hu : n.unused
        · simp only [giveInput, sneakInput, Node.at, ha, hq, hu]
          exact nothing _ same rfl (by simp [World.isUnused, World.rest, hx, hu, ha]) hno
        · by_cases hd : n.detached = some true
          · simp [giveInput, sneakInput, Node.at, ha, hq, hu, hd]
            exact nothing _ same rfl
              (by simp [World.isUnused, World.rest, hx, hu, World.setNode]) hno
          · simp [giveInput, sneakInput, Node.at, ha, hq, hu, hd]
            exact nothing _ (fun _ => rfl) rfl (by simp [World.isUnused, World.rest, hx, hu]) hno
    · have hno : w.active s = false ∨ w.takes x t = false := .inl (by simpa using ha)
      simp only [giveInput, sneakInput, Node.at, ha]
      exact nothing _ same rfl (by simp [ha, World.setNode]) hno

theorem sendOutput_sent (w : World A) (x : Option Nat) (s : Nat) (t : Ty) (v : Val A) :
    Sent w (w.sendOutput x s t v).1 s (x.toList.map fun x => (x, t, v)) := by
  cases x with
  | none => exact Sent.refl w s
  | some x => exact give_sent w x s t v

/-- What a target makes of an item with a name. -/
def NamedTarget.outs (t : Ty) (name : String) (o : Val A) : NamedTarget → Out A
  | .namedValue x => (x, .named t, .named name o)
  | .value x => (x, t, o)

theorem sendNamed_sent (w : World A) (e : Effect A) (x : Option NamedTarget) (s : Nat)
    (name : String) (v : Val A) :
    Sent w (w.sendNamed e x s name v).1 s
      (match e.run v with
        | .error _ => []
        | .ok o => x.toList.map (NamedTarget.outs e.output name o)) := by
  unfold World.sendNamed
  cases e.run v with
  | error x => exact Sent.refl w s
  | ok o =>
    cases x with
    | none => exact Sent.refl w s
    | some x =>
      cases x with
      | namedValue x => exact give_sent w x s _ _
      | value x => exact give_sent w x s _ _

theorem sendAnonymous_sent (w : World A) (e : Effect A) (x : Option Nat) (s : Nat)
    (v : Val A) :
    Sent w (w.sendAnonymous e x s v).1 s
      (match e.run v with
        | .error _ => []
        | .ok o => x.toList.map fun x => (x, e.output, o)) := by
  unfold World.sendAnonymous
  cases e.run v with
  | error x => exact Sent.refl w s
  | ok o => exact sendOutput_sent w x s _ _

/-! ### The target map against the list of registrations -/

/-- The map holds, for every key, the first registration. -/
structure Holds (m : TargetMap) (regs : Regs A) : Prop where
  anon : ∀ t, m.getAnonymous t = typeTarget t regs
  name : ∀ n, (m.named.find? fun p => p.1 = n).map (·.2) = nameTarget n regs

theorem typeTarget_append (t : Ty) (r r' : Regs A) :
    typeTarget t (r ++ r') = (typeTarget t r).or (typeTarget t r') := by
  induction r with
  | nil => simp [typeTarget]
  | cons p r ih =>
    obtain ⟨s, x⟩ := p
    cases s <;> simp only [List.cons_append, typeTarget, ih]
    · split <;> simp
    · split <;> simp

theorem nameTarget_append (n : String) (r r' : Regs A) :
    nameTarget n (r ++ r') = (nameTarget n r).or (nameTarget n r') := by
  induction r with
  | nil => simp [nameTarget]
  | cons p r ih =>
    obtain ⟨s, x⟩ := p
    cases s <;> simp only [List.cons_append, nameTarget, ih]
    · split <;> simp

theorem addAnonymous_get (m : TargetMap) (t u : Ty) (x : Nat) :
    (m.addAnonymous t x).1.getAnonymous u =
      (m.getAnonymous u).or (if t = u then some x else none) := by
  unfold TargetMap.addAnonymous
  cases h : m.anonymous.find? fun p => p.1 = t with
  | none =>
    simp only [TargetMap.getAnonymous, List.find?_append]
    cases hu : m.anonymous.find? fun p => p.1 = u with
    | none =>
      by_cases htu : t = u
      · simp [htu]
      · simp [htu]
    | some p => simp
  | some p =>
    simp only [TargetMap.getAnonymous]
    by_cases htu : t = u
    · subst htu; simp [h]
    · simp [htu]

theorem addAnonymous_named (m : TargetMap) (t : Ty) (x : Nat) :
    (m.addAnonymous t x).1.named = m.named := by
  unfold TargetMap.addAnonymous; split <;> rfl

theorem addNamed_anonymous (m : TargetMap) (n : String) (t : Ty) (x : Nat) :
    (m.addNamed n t x).1.anonymous = m.anonymous := by
  unfold TargetMap.addNamed; split <;> rfl

theorem addNamed_find (m : TargetMap) (n k : String) (t : Ty) (x : Nat) :
    ((m.addNamed n t x).1.named.find? fun p => p.1 = k).map (·.2) =
      ((m.named.find? fun p => p.1 = k).map (·.2)).or (if n = k then some (t, x) else none) := by
  unfold TargetMap.addNamed
  cases h : m.named.find? fun p => p.1 = n with
  | none =>
    simp only [List.find?_append]
    cases hk : m.named.find? fun p => p.1 = k with
    | none =>
      by_cases hnk : n = k
      · simp [hnk]
      · simp [hnk]
    | some p => simp
  | some p =>
    by_cases hnk : n = k
    · subst hnk; simp [h]
    · simp [hnk]

theorem Holds.register {m : TargetMap} {regs : Regs A} (h : Holds m regs) (s : Stream A)
    (x : Nat) : Holds (m.register s x).1 (regs ++ [(s, x)]) := by
  constructor
  · intro t
    rw [typeTarget_append, ← h.anon]
    cases s with
    | anon e => simp [TargetMap.register, addAnonymous_get, typeTarget]
    | named n e =>
      simp [TargetMap.register, TargetMap.getAnonymous, addNamed_anonymous, typeTarget]
    | dyn e => simp [TargetMap.register, addAnonymous_get, typeTarget]
  · intro n
    rw [nameTarget_append, ← h.name]
    cases s with
    | anon e => simp [TargetMap.register, addAnonymous_named, nameTarget]
    | named k e => simp [TargetMap.register, addNamed_find, nameTarget]
    | dyn e => simp [TargetMap.register, addAnonymous_named, nameTarget]

theorem Holds.empty : Holds ({} : TargetMap) ([] : Regs A) := by
  constructor <;> intro <;> simp [TargetMap.getAnonymous, typeTarget, nameTarget]

theorem registerAll_holds (pack : Pack A) : ∀ (ts : List Nat) (m : TargetMap) (regs : Regs A),
    Holds m regs → Holds (registerAll pack ts m).1 (regs ++ pack.zip ts) := by
  induction pack with
  | nil => intro ts m regs h; simpa [registerAll] using h
  | cons s pack ih =>
    intro ts m regs h
    cases ts with
    | nil => simpa [registerAll] using h
    | cons x ts =>
      have := ih ts _ _ (h.register s x)
      simpa [registerAll, List.append_assoc] using this

/-! ### Looking up a named target -/

theorem hmInsert_find (n k : String) (x : Nat) (l : List (String × Nat)) :
    ((hmInsert n x l).find? fun p => p.1 = k).map (·.2) =
      if n = k then some x else (l.find? fun p => p.1 = k).map (·.2) := by
  induction l with
  | nil =>
    by_cases h : n = k
    · simp [hmInsert, h]
    · simp [hmInsert, h]
  | cons p l ih =>
    unfold hmInsert
    by_cases hp : p.1 = n
    · by_cases h : n = k
      · simp [hp, h]
      · simp [hp, h]
    · by_cases h : n = k
      · have : ¬ p.1 = k := h ▸ hp
        simp only [hp, if_false, List.find?_cons, this, decide_false]
        rw [ih]
      · by_cases hpk : p.1 = k
        · rw [if_neg hp]; simp [hpk, h]
        · simp only [hp, if_false, List.find?_cons, hpk, decide_false]
          rw [ih]

/-- The keys of the hash map are distinct. -/
def Distinct (l : List (String × Ty × Nat)) : Prop := (l.map (·.1)).Nodup

theorem specificOf_find (t : Ty) (k : String) (l : List (String × Ty × Nat)) :
    ∀ (acc : List (String × Nat)), Distinct l →
    ((specificOf t l acc).find? fun p => p.1 = k).map (·.2) =
      (((l.find? fun p => p.1 = k).filter fun p => p.2.1 = t).map (·.2.2)).or
        ((acc.find? fun p => p.1 = k).map (·.2)) := by
  induction l with
  | nil => intro acc _; simp [specificOf]
  | cons p l ih =>
    intro acc hd
    obtain ⟨n, u, x⟩ := p
    have hd' : Distinct l := by
      unfold Distinct at hd ⊢
      simp only [List.map_cons, List.nodup_cons] at hd
      exact hd.2
    have hn : n ∉ l.map (·.1) := by
      unfold Distinct at hd
      simp only [List.map_cons, List.nodup_cons] at hd
      exact hd.1
    rw [specificOf, ih _ hd']
    by_cases hk : n = k
    · subst hk
      have hnone : (l.find? fun p => p.1 = n) = none := by
        rw [List.find?_eq_none]
        intro p hp h
        exact hn (List.mem_map.2 ⟨p, hp, by simpa using h⟩)
      by_cases hu : u = t
      · subst hu; simp [hnone, hmInsert_find, Option.filter]
      · simp [hnone, hu, Option.filter]
    · by_cases hu : u = t
      · simp [hu, hk, hmInsert_find]
      · simp [hu, hk]

theorem addNamed_distinct {m : TargetMap} (h : Distinct m.named) (n : String) (t : Ty)
    (x : Nat) : Distinct (m.addNamed n t x).1.named := by
  unfold TargetMap.addNamed
  cases hf : m.named.find? fun p => p.1 = n with
  | none =>
    simp only [Distinct, List.map_append, List.map_cons, List.map_nil]
    rw [List.nodup_append]
    refine ⟨h, by simp, ?_⟩
    intro a ha b hb hab
    simp only [List.mem_singleton] at hb
    obtain ⟨p, hp, hpa⟩ := List.mem_map.1 ha
    have := List.find?_eq_none.1 hf p hp
    apply this
    simp [hpa, hab, hb]
  | some p => exact h

theorem register_distinct {m : TargetMap} (h : Distinct m.named) (s : Stream A) (x : Nat) :
    Distinct (m.register s x).1.named := by
  cases s with
  | anon e => simpa [TargetMap.register, addAnonymous_named] using h
  | named n e => exact addNamed_distinct h n _ x
  | dyn e => simpa [TargetMap.register, addAnonymous_named] using h

theorem registerAll_distinct (pack : Pack A) : ∀ (ts : List Nat) (m : TargetMap),
    Distinct m.named → Distinct (registerAll pack ts m).1.named := by
  induction pack with
  | nil => intro ts m h; exact h
  | cons s pack ih =>
    intro ts m h
    cases ts with
    | nil => exact h
    | cons x ts => exact ih ts _ (register_distinct h s x)

/-- The snapshot taken for a provider resolves names as the map itself does. -/
theorem targets_get (m : TargetMap) (h : Distinct m.named) (t : Ty) (n : String) :
    (Targets.new t (some m)).get n = m.getNamedOrAnonymous t n := by
  simp [Targets.get, Targets.new, TargetMap.getNamedOrAnonymous, TargetMap.getNamed,
    specificOf_find t n m.named [] h, Option.map_map]

theorem getNamed_holds {m : TargetMap} {regs : Regs A} (h : Holds m regs) (t : Ty)
    (n : String) :
    m.getNamed t n = ((nameTarget n regs).filter fun p => p.1 = t).map (·.2) := by
  rw [← h.name, TargetMap.getNamed]
  cases m.named.find? fun p => p.1 = n with
  | none => rfl
  | some p =>
    by_cases hp : p.2.1 = t
    · simp [hp, Option.filter]
    · simp [hp, Option.filter]

theorem outs_routeNamed {m : TargetMap} {regs : Regs A} (h : Holds m regs) (t : Ty)
    (n : String) (o : Val A) :
    (m.getNamedOrAnonymous t n).toList.map (NamedTarget.outs t n o) =
      routeNamed regs t n o := by
  unfold TargetMap.getNamedOrAnonymous routeNamed
  rw [getNamed_holds h, h.anon, h.anon]
  cases (nameTarget n regs).filter fun p => p.1 = t with
  | some p => simp [NamedTarget.outs]
  | none =>
    cases typeTarget (.named t) regs with
    | some x => simp [NamedTarget.outs]
    | none =>
      cases typeTarget t regs with
      | some x => simp [NamedTarget.outs]
      | none => simp

theorem sendItem_sent {w : World A} {m : TargetMap} {regs : Regs A} (h : Holds m regs)
    (hd : Distinct m.named) (session : Nat) (s : Stream A) (i : Item A) :
    Sent w (w.sendItem session (s.port (some m)) i).1 session (route regs s i) := by
  cases s with
  | anon e =>
    refine (sendAnonymous_sent w e _ session i.2).congr ?_
    unfold route
    simp only [Stream.effect]
    cases e.run i.2 with
    | error x => rfl
    | ok o => simp [Stream.port, h.anon]
  | named n e =>
    refine (sendNamed_sent w e _ session n i.2).congr ?_
    unfold route
    simp only [Stream.effect]
    cases e.run i.2 with
    | error x => rfl
    | ok o => simp only [Stream.port, targets_get m hd, outs_routeNamed h]
  | dyn e =>
    refine (sendNamed_sent w e _ session i.1 i.2).congr ?_
    unfold route
    simp only [Stream.effect]
    cases e.run i.2 with
    | error x => rfl
    | ok o => simp only [Stream.port, targets_get m hd, outs_routeNamed h]

theorem sendAll_sent {m : TargetMap} {regs : Regs A} (h : Holds m regs)
    (hd : Distinct m.named) (source session : Nat) (sends : List (Stream A × Item A)) :
    ∀ (w : World A),
    Sent w (w.sendAll source session (sends.map fun x => (x.1.port (some m), x.2))) session
      (sends.flatMap fun x => route regs x.1 x.2) := by
  induction sends with
  | nil => intro w; exact Sent.refl w session
  | cons x sends ih =>
    intro w
    have h1 := (sendItem_sent (w := w) h hd session x.1 x.2).report source
      (w.sendItem session (x.1.port (some m)) x.2).2
    exact h1.trans (ih _)

/-- A node without a map of stream targets. -/
theorem sendItem_none (w : World A) (session : Nat) (s : Stream A) (i : Item A) :
    Sent w (w.sendItem session (s.port none) i).1 session [] := by
  cases s with
  | anon e =>
    refine (sendAnonymous_sent w e _ session i.2).congr ?_
    cases e.run i.2 <;> rfl
  | named n e =>
    refine (sendNamed_sent w e _ session n i.2).congr ?_
    cases e.run i.2 <;> rfl
  | dyn e =>
    refine (sendNamed_sent w e _ session i.1 i.2).congr ?_
    cases e.run i.2 <;> rfl

theorem sendAll_none (source session : Nat) (sends : List (Stream A × Item A)) :
    ∀ (w : World A),
    Sent w (w.sendAll source session (sends.map fun x => (x.1.port none, x.2))) session [] := by
  induction sends with
  | nil => intro w; exact Sent.refl w session
  | cons x sends ih =>
    intro w
    have h1 := (sendItem_none w session x.1 x.2).report source
      (w.sendItem session (x.1.port none) x.2).2
    exact h1.trans (ih _)

theorem sendAll_append (source session : Nat) (l l' : List (Port A × Item A)) :
    ∀ (w : World A), w.sendAll source session (l ++ l') =
      (w.sendAll source session l).sendAll source session l' := by
  induction l with
  | nil => intro w; rfl
  | cons p l ih => intro w; simp [World.sendAll, ih]

theorem defer_eq (source session : Nat) (bs : List (Buffer A)) : ∀ (w : World A),
    w.defer source session bs =
      w.sendAll source session (bs.flatMap fun b => b.items.map fun i => (b.port, i)) := by
  induction bs with
  | nil => intro w; rfl
  | cons b bs ih => intro w; simp [World.defer, ih, sendAll_append]

/-- The positions of the buffers in which nothing was put. -/
def empties : Nat → List (Buffer A) → List Nat
  | _, [] => []
  | k, b :: bs => (if b.items.isEmpty then [k] else []) ++ empties (k + 1) bs

theorem process_eq (source session : Nat) (bs : List (Buffer A)) : ∀ (k : Nat) (w : World A),
    (∀ b, b ∈ bs → b.kept = false) →
    w.process source session k bs =
      (w.sendAll source session (bs.flatMap fun b => b.items.map fun i => (b.port, i)),
        empties k bs, none) := by
  induction bs with
  | nil => intro k w _; rfl
  | cons b bs ih =>
    intro k w hb
    have hb0 : b.kept = false := hb b (by simp)
    simp [World.process, hb0, ih (k + 1) _ (fun c hc => hb c (by simp [hc])), empties,
      sendAll_append]

/-! ### What was put into the buffers -/

theorem bufferSend_get (bs : List (Buffer A)) (k j : Nat) (i : Item A) :
    (bufferSend bs k i)[j]? =
      bs[j]?.map fun b => { b with items := b.items ++ if j = k then [i] else [] } := by
  unfold bufferSend
  cases h : bs[k]? with
  | none =>
    by_cases hj : j = k
    · subst hj; simp [h]
    · simp [hj]
  | some b =>
    by_cases hj : j = k
    · subst hj
      have : j < bs.length := by
        have := List.getElem?_eq_some_iff.1 h
        exact this.1
      simp only [List.getElem?_set_self this, h, Option.map_some, if_true]
    · have hj' : ¬ k = j := fun e => hj e.symm
      simp [List.getElem?_set, hj', hj]

theorem bufferSends_get (sends : List (Nat × Item A)) : ∀ (bs : List (Buffer A)) (j : Nat),
    (bufferSends bs sends)[j]? =
      bs[j]?.map fun b =>
        { b with items := b.items ++ (sends.filter fun x => x.1 = j).map (·.2) } := by
  induction sends with
  | nil => intro bs j; simp [bufferSends]
  | cons x sends ih =>
    obtain ⟨k, i⟩ := x
    intro bs j
    rw [bufferSends, ih, bufferSend_get, Option.map_map]
    cases bs[j]? with
    | none => rfl
    | some b =>
      by_cases hj : j = k
      · subst hj; simp [List.append_assoc]
      · have hj' : ¬ k = j := fun e => hj e.symm
        simp [hj, hj']

theorem filled_eq (pack : Pack A) (m : Option TargetMap) (sends : List (Nat × Item A)) :
    bufferSends (fresh pack m) sends =
      pack.zipIdx.map fun p =>
        ⟨p.1.port m, (sends.filter fun x => x.1 = p.2).map (·.2), false⟩ := by
  apply List.ext_getElem?
  intro j
  rw [bufferSends_get]
  simp [fresh, List.getElem?_map, List.getElem?_zipIdx, Option.map_map]
  rfl

end Verif.Streams
