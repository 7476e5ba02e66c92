import Verif.Streams.Redirect

/- C39, C60, C61, C62, C63. -/
namespace Verif.Streams

open Verif.Input

variable {A : Type}

/-- C39 for asynchronous providers, whose sends run one by one through the channel: whatever
outputs were registered for a node (`node` with the entities `ts`) and whatever streams the
provider sends on, each item goes where `route` says, in the order in which the items were
sent, in the session of the request; nothing else happens to any inbox. -/
theorem C39_channels (w : World A) (source session : Nat) (node : Pack A) (ts : List Nat)
    (hmap : (w.nodes source).bind (·.map) = some (registerAll node ts {}).1)
    (sends : List (Stream A × Item A)) :
    Sent w
      (w.sendAll source session
        (sends.map fun x => (x.1.port ((w.nodes source).bind (·.map)), x.2)))
      session (sends.flatMap fun x => route (node.zip ts) x.1 x.2) := by
  rw [hmap]
  have h := registerAll_holds node ts {} [] Holds.empty
  exact sendAll_sent (by simpa using h)
    (registerAll_distinct node ts {} (by simp [Distinct])) source session sends w

/-- C39: without registered outputs nothing is sent anywhere. -/
theorem C39_unregistered (w : World A) (source session : Nat)
    (hmap : (w.nodes source).bind (·.map) = none) (sends : List (Stream A × Item A)) :
    Sent w
      (w.sendAll source session
        (sends.map fun x => (x.1.port ((w.nodes source).bind (·.map)), x.2)))
      session [] := by
  rw [hmap]; exact sendAll_none source session sends w

/-- C39 for continuous services, whose buffers are sent off when the order is dropped. -/
theorem C39_deferred (w : World A) (source session : Nat) (node : Pack A) (ts : List Nat)
    (hmap : (w.nodes source).bind (·.map) = some (registerAll node ts {}).1)
    (pack : Pack A) (sends : List (Nat × Item A)) :
    Sent w
      (w.defer source session
        (bufferSends (fresh pack ((w.nodes source).bind (·.map))) sends))
      session (bufferOuts (node.zip ts) pack sends) := by
  rw [hmap, defer_eq, filled_sends]
  have h := registerAll_holds node ts {} [] Holds.empty
  refine (sendAll_sent (by simpa using h)
    (registerAll_distinct node ts {} (by simp [Distinct])) source session _ w).congr ?_
  simp [bufferOuts, List.flatMap_assoc, List.flatMap_map]

/-- C39 for blocking providers, whose buffers are sent off when the provider has returned;
the streams recorded as unused are exactly those into which nothing was put. -/
theorem C39_buffers (w : World A) (source session : Nat) (node : Pack A) (ts : List Nat)
    (hmap : (w.nodes source).bind (·.map) = some (registerAll node ts {}).1)
    (pack : Pack A) (sends : List (Nat × Item A)) :
    ∃ w', w.process source session 0
        (bufferSends (fresh pack ((w.nodes source).bind (·.map))) sends) =
      (w', (List.range pack.length).filter fun j => !sends.any fun x => x.1 = j, none) ∧
      Sent w w' session (bufferOuts (node.zip ts) pack sends) := by
  refine ⟨w.defer source session
    (bufferSends (fresh pack ((w.nodes source).bind (·.map))) sends), ?_,
    C39_deferred w source session node ts hmap pack sends⟩
  rw [process_eq, defer_eq]
  · congr 2
    rw [filled_eq, List.range_eq_range']
    exact empties_filled pack _ sends 0
  · intro b hb
    rw [filled_eq] at hb
    obtain ⟨p, _, rfl⟩ := List.mem_map.1 hb
    rfl

/-- C39: registering twice keeps the first (see `typeTarget` and `nameTarget`), and exactly
the later registrations are reported, in order. -/
theorem C39_duplicates (node : Pack A) (ts : List Nat) :
    (registerAll node ts {}).2 = late [] (node.zip ts) := by
  have key : ∀ (m : TargetMap) (seen : Regs A), Holds m seen → ∀ (s : Stream A) (x : Nat),
      (m.register s x).2 = seen.any fun r => clash r.1 s := by
    intro m seen h s x
    have hty : ∀ t, (m.addAnonymous t x).2 = (typeTarget t seen).isSome := by
      intro t
      rw [← h.anon, TargetMap.addAnonymous, TargetMap.getAnonymous]
      cases m.anonymous.find? fun p => p.1 = t <;> rfl
    have hnm : ∀ n t, (m.addNamed n t x).2 = (nameTarget n seen).isSome := by
      intro n t
      rw [← h.name, TargetMap.addNamed]
      cases m.named.find? fun p => p.1 = n <;> rfl
    have hty' : ∀ (seen : Regs A) t, (typeTarget t seen).isSome =
        seen.any fun r => match r.1 with
          | .anon e => decide (e.output = t)
          | .dyn e => decide (.named e.output = t)
          | .named _ _ => false := by
      intro seen t
      induction seen with
      | nil => rfl
      | cons r seen ih =>
        obtain ⟨s, y⟩ := r
        cases s with
        | anon e => by_cases he : e.output = t <;> simp [typeTarget, he, ih]
        | named n e => simp [typeTarget, ih]
        | dyn e => by_cases he : Ty.named e.output = t <;> simp [typeTarget, he, ih]
    have hnm' : ∀ (seen : Regs A) n, (nameTarget n seen).isSome =
        seen.any fun r => match r.1 with
          | .named k _ => decide (k = n)
          | _ => false := by
      intro seen n
      induction seen with
      | nil => rfl
      | cons r seen ih =>
        obtain ⟨s, y⟩ := r
        cases s with
        | anon e => simp [nameTarget, ih]
        | named k e => by_cases he : k = n <;> simp [nameTarget, he, ih]
        | dyn e => simp [nameTarget, ih]
    cases s with
    | anon e =>
      simp only [TargetMap.register, hty, hty']
      congr 1; funext r
      cases r.1 <;> simp [clash]
    | named n e =>
      simp only [TargetMap.register, hnm, hnm']
      congr 1; funext r
      cases r.1 <;> simp [clash]
    | dyn e =>
      simp only [TargetMap.register, hty, hty']
      congr 1; funext r
      cases r.1 <;> simp [clash]
  have gen : ∀ (node : Pack A) (ts : List Nat) (m : TargetMap) (seen : Regs A), Holds m seen →
      (registerAll node ts m).2 = late seen (node.zip ts) := by
    intro node
    induction node with
    | nil => intro ts m seen _; simp [registerAll, late]
    | cons s node ih =>
      intro ts m seen h
      cases ts with
      | nil => simp [registerAll, late]
      | cons x ts =>
        simp only [registerAll, List.zip_cons_cons, late]
        rw [key m seen h s x, ih ts _ _ (h.register s x)]
  exact gen node ts {} [] Holds.empty

/-- C39: in particular, when a node was made for the very provider that serves it and no two
streams of the pack clash, an item of an anonymous or named stream reaches the output of that
stream and no other, and an item of a dynamically named stream reaches the output of that
stream with its name, unless the pack also has a stream of that name. -/
theorem C39_own_output (before after : Regs A) (s : Stream A) (x : Nat) (i : Item A) (o : Val A)
    (hb : ∀ y, y ∈ before → clash y.1 s = false) (hrun : s.effect.run i.2 = .ok o) :
    (s.isDyn = false →
      route (before ++ (s, x) :: after) s i = [(x, s.effect.output, o)]) ∧
    (s.isDyn = true → (∀ y n f, y ∈ before ++ after → y.1 = .named n f → n ≠ i.1) →
      route (before ++ (s, x) :: after) s i =
        [(x, .named s.effect.output, .named i.1 o)]) := by
  cases s with
  | anon e =>
    refine ⟨fun _ => ?_, fun h => by cases h⟩
    simp only [Stream.effect] at hrun ⊢
    simp only [route, Stream.effect, hrun]
    rw [typeTarget_split e.output before after (.anon e) x hb rfl (by intros; nofun)]
    rfl
  | named n e =>
    refine ⟨fun _ => ?_, fun h => by cases h⟩
    simp only [Stream.effect] at hrun ⊢
    simp only [route, Stream.effect, hrun, routeNamed]
    rw [nameTarget_split n e before after x hb]
    simp [Option.filter]
  | dyn e =>
    refine ⟨fun h => (by cases h), fun _ hno => ?_⟩
    simp only [Stream.effect] at hrun ⊢
    simp only [route, Stream.effect, hrun, routeNamed]
    have hnm : nameTarget i.1 (before ++ (.dyn e, x) :: after) = none := by
      have gen : ∀ l : Regs A, (∀ y n f, y ∈ l → y.1 = .named n f → n ≠ i.1) →
          nameTarget i.1 l = none := by
        intro l hl
        induction l with
        | nil => rfl
        | cons y l ih =>
          obtain ⟨u, z⟩ := y
          have h2 := ih (fun y n f hy => hl y n f (by simp [hy]))
          cases u with
          | named m f =>
            have : ¬ m = i.1 := hl (.named m f, z) m f (by simp) rfl
            simp [nameTarget, this, h2]
          | anon f => simp [nameTarget, h2]
          | dyn f => simp [nameTarget, h2]
      apply gen
      intro y n f hy hyn
      simp only [List.mem_append, List.mem_cons] at hy
      rcases hy with hy | hy | hy
      · exact hno y n f (by simp [hy]) hyn
      · subst hy; cases hyn
      · exact hno y n f (by simp [hy]) hyn
    rw [hnm, typeTarget_split (.named e.output) before after (.dyn e) x hb rfl
      (by intros; nofun)]
    rfl

/-! ### Redirections -/

/-- C39 for the streams of a workflow: an item that reaches the stream exit of a workflow goes
on from the node that runs the workflow, to the output of that node that `route` says, in the
session of that node's request. -/
theorem C39_workflow (w : World A) (r : Redirect A) (source scope : Nat) (x : Exit)
    (exits : List (Nat × Exit)) (node : Pack A) (ts : List Nat) (s : Stream A)
    (i : Inp Nat (Val A)) (rest : List (Inp Nat (Val A))) (it : Item A)
    (hs : r.stream = some s) (hi : w.inbox source r.storageTy = i :: rest)
    (hit : r.item i.data = some it)
    (hscope : (w.nodes source).bind (·.scope) = some scope)
    (hexits : (w.nodes scope).bind (·.exits) = some exits)
    (hx : exits.find? (fun p => p.1 = i.session) = some (i.session, x))
    (hmap : (w.nodes x.source).bind (·.map) = some (registerAll node ts {}).1) :
    Redirected w (r.exec source w).1 source r.storageTy x.parentSession
      (route (node.zip ts) s it) := by
  obtain ⟨w1, e1, t1⟩ := take_spec hi
  have hexit : w1.exitOf source i.session = .ok (x, (registerAll node ts {}).1) := by
    rw [exitOf_took t1]
    simp [World.exitOf, hscope, hexits, hx, hmap]
  have hold : Holds (registerAll node ts {}).1 (node.zip ts) := by
    simpa using registerAll_holds node ts {} [] Holds.empty
  cases r with
  | «scoped» target e => cases hs
  | static name e =>
    simp only [Redirect.stream, Option.some.injEq] at hs
    simp only [Redirect.item, Option.some.injEq] at hit
    subst hs hit
    simp only [Redirect.exec, e1, hexit]
    refine t1.sent ((sendNamed_sent w1 e _ _ name i.data).congr ?_)
    simp only [route, Stream.effect]
    cases e.run i.data with
    | error x => rfl
    | ok o => exact outs_routeNamed hold e.output name o
  | dynamic e =>
    simp only [Redirect.stream, Option.some.injEq] at hs
    subst hs
    cases hd : i.data with
    | atom t a => rw [hd] at hit; cases hit
    | named name v =>
      rw [hd] at hit
      simp only [Redirect.item, Option.some.injEq] at hit
      subst hit
      simp only [Redirect.exec, e1, hd, hexit]
      refine t1.sent ((sendNamed_sent w1 e _ _ name v).congr ?_)
      simp only [route, Stream.effect]
      cases e.run v with
      | error x => rfl
      | ok o => exact outs_routeNamed hold e.output name o
  | anonymous e =>
    simp only [Redirect.stream, Option.some.injEq] at hs
    simp only [Redirect.item, Option.some.injEq] at hit
    subst hs hit
    simp only [Redirect.exec, e1, hexit]
    refine t1.sent ((sendAnonymous_sent w1 e _ _ i.data).congr ?_)
    simp only [route, Stream.effect]
    cases e.run i.data with
    | error x => rfl
    | ok o => simp [hold.anon]

/-- C39: an item that reaches the stream exit of a workflow whose session has ended already
is dropped. -/
theorem C39_workflow_ended (w : World A) (r : Redirect A) (source scope : Nat)
    (exits : List (Nat × Exit)) (s : Stream A)
    (i : Inp Nat (Val A)) (rest : List (Inp Nat (Val A))) (it : Item A)
    (hs : r.stream = some s) (hi : w.inbox source r.storageTy = i :: rest)
    (hit : r.item i.data = some it)
    (hscope : (w.nodes source).bind (·.scope) = some scope)
    (hexits : (w.nodes scope).bind (·.exits) = some exits)
    (hx : exits.find? (fun p => p.1 = i.session) = none) :
    (r.exec source w).2 = some .notReady ∧
    ∀ session, Redirected w (r.exec source w).1 source r.storageTy session [] := by
  obtain ⟨w1, e1, t1⟩ := take_spec hi
  have hexit : w1.exitOf source i.session = .error .notReady := by
    rw [exitOf_took t1]
    simp [World.exitOf, hscope, hexits, hx]
  cases r with
  | «scoped» target e => cases hs
  | static name e =>
    simp only [Redirect.exec, e1, hexit]
    exact ⟨trivial, fun session => t1.sent (Sent.refl w1 session)⟩
  | dynamic e =>
    cases hd : i.data with
    | atom t a => rw [hd] at hit; cases hit
    | named name v =>
      simp only [Redirect.exec, e1, hd, hexit]
      exact ⟨trivial, fun session => t1.sent (Sent.refl w1 session)⟩
  | anonymous e =>
    simp only [Redirect.exec, e1, hexit]
    exact ⟨trivial, fun session => t1.sent (Sent.refl w1 session)⟩

/-- C39: an item that reaches the stream exit of an inner scope goes to the one target of that
exit, in the parent session. -/
theorem C39_scope (w : World A) (source target x parent : Nat) (e : Effect A)
    (i : Inp Nat (Val A)) (rest : List (Inp Nat (Val A)))
    (hi : w.inbox source e.input = i :: rest)
    (hsingle : (w.nodes source).bind (·.single) = some x)
    (hparent : (w.nodes i.session).bind (·.parent) = some parent) :
    Redirected w ((Redirect.scoped target e).exec source w).1 source e.input parent
      (match e.run i.data with | .error _ => [] | .ok o => [(x, e.output, o)]) := by
  obtain ⟨w1, e1, t1⟩ := take_spec hi
  have e1' : w.take source (Redirect.scoped target e).storageTy = (w1, .ok i) := e1
  simp only [Redirect.exec, e1', rest_bind t1.rest (·.parent) (fun _ => rfl), hparent,
    rest_bind t1.rest (·.single) (fun _ => rfl), hsingle]
  exact t1.sent (sendAnonymous_sent w1 e (some x) parent i.data)

/-! ### C60: types -/

/-- C60: whatever streams the provider has and whatever streams the node was declared with
(the two differ after a cast), an item makes at most one message, and that goes to an output
that was declared for exactly the type of the message; the message is the outcome of the side
effect, or that with its name. -/
theorem C60_declared (regs : Regs A) (s : Stream A) (i : Item A) (m : Out A)
    (h : m ∈ route regs s i) :
    route regs s i = [m] ∧ (∃ s', (s', m.1) ∈ regs ∧ s'.declared = m.2.1) ∧
    ∃ o, s.effect.run i.2 = .ok o ∧
      (m.2 = (s.effect.output, o) ∨
        ∃ name, m.2 = (.named s.effect.output, .named name o)) := by
  unfold route at h ⊢
  cases hr : s.effect.run i.2 with
  | error x => rw [hr] at h; cases h
  | ok o =>
    rw [hr] at h
    cases s with
    | anon e =>
      simp only [Stream.effect] at h hr ⊢
      cases ht : typeTarget e.output regs with
      | none => rw [ht] at h; cases h
      | some x =>
        rw [ht] at h
        simp only [Option.toList_some, List.map_cons, List.map_nil, List.mem_singleton] at h
        subst h
        exact ⟨rfl, typeTarget_declared ht, o, rfl, .inl rfl⟩
    | named n e =>
      simp only [Stream.effect] at h hr ⊢
      obtain ⟨h1, h2, h3⟩ := routeNamed_declared h
      exact ⟨h3, h1, o, rfl, h2.imp id fun h => ⟨n, h⟩⟩
    | dyn e =>
      simp only [Stream.effect] at h hr ⊢
      obtain ⟨h1, h2, h3⟩ := routeNamed_declared h
      exact ⟨h3, h1, o, rfl, h2.imp id fun h => ⟨i.1, h⟩⟩

/-- C60: sending never puts a value into an input storage of another type, whatever casts
were made, provided the effects have the types that the compiler checked. -/
theorem C60_typed (w : World A) (source session : Nat) (node : Pack A) (ts : List Nat)
    (hmap : (w.nodes source).bind (·.map) = some (registerAll node ts {}).1)
    (sends : List (Stream A × Item A))
    (hsound : ∀ x, x ∈ sends → x.1.effect.Sound ∧ x.2.2.ty = x.1.effect.input)
    (hw : w.Typed) :
    (w.sendAll source session
      (sends.map fun x => (x.1.port ((w.nodes source).bind (·.map)), x.2))).Typed := by
  refine (C39_channels w source session node ts hmap sends).typed hw ?_
  intro m hm
  obtain ⟨x, hx, hm⟩ := List.mem_flatMap.1 hm
  obtain ⟨_, _, o, ho, h⟩ := C60_declared _ _ _ _ hm
  have hty := (hsound x hx).1 _ _ (hsound x hx).2 ho
  rcases h with h | ⟨name, h⟩
  · rw [h]; exact hty
  · rw [h]; simp [Val.ty, hty]

/-! ### C61: discovery -/

/-- C61 for filters without dynamically named streams. A service found by a filter can feed
every stream that the filter requires, and a service whose pack has every required stream is
found. What is missing: dynamically named streams, see `C61_dynamic_violated`. -/
theorem C61_partial (p q : Pack A) (hq : ∀ s, s ∈ q → s.isDyn = false) :
    ((Filter.require q).admits (some (Avail.of p)) = true →
      ∀ s', s' ∈ q → ∃ s, s ∈ p ∧ Feeds s s') ∧
    (DistinctNames p → (∀ s', s' ∈ q → ∃ s, s ∈ p ∧ Same s s') →
      (Filter.require q).admits (some (Avail.of p)) = true) := by
  constructor
  · intro h s' hs'
    simp only [Filter.admits, Avail.hasAll, List.all_eq_true] at h
    have h := h s' hs'
    cases s' with
    | dyn e => exact absurd (hq _ hs') (by simp [Stream.isDyn])
    | anon e =>
      obtain ⟨s, hs, hn, hd⟩ := (of_anonymous p e.output).1 h
      exact ⟨s, hs, feeds_of_declared hn nofun hd⟩
    | named n e =>
      simp only [Avail.has, Avail.hasNamed] at h
      cases hf : (Avail.of p).named.find? fun p => p.1 = n with
      | none => rw [hf] at h; cases h
      | some r =>
        rw [hf] at h
        obtain ⟨f, hfm, rfl⟩ := of_named_mem hf
        simp only [Option.any_some, decide_eq_true_eq] at h
        exact ⟨.named n f, hfm, feeds_named h⟩
  · intro hd h
    simp only [Filter.admits, Avail.hasAll, List.all_eq_true]
    intro s' hs'
    obtain ⟨s, hs, hsame⟩ := h s' hs'
    cases s' with
    | dyn e => exact absurd (hq _ hs') (by simp [Stream.isDyn])
    | anon e =>
      cases s with
      | anon f => exact (of_anonymous p e.output).2 ⟨.anon f, hs, nofun, hsame⟩
      | named n f => exact hsame.elim
      | dyn f => exact hsame.elim
    | named n e =>
      cases s with
      | anon f => exact hsame.elim
      | dyn f => exact hsame.elim
      | named m f =>
        obtain ⟨rfl, ho⟩ := hsame
        simp [Avail.has, Avail.hasNamed, of_named_find hd hs, ho]

/-- C61: among any services, discovery gives exactly those that pass every filter. -/
theorem C61_discover (services : List (Nat × Option Avail)) (fs : List (Filter A)) (x : Nat) :
    x ∈ discover services fs ↔
      ∃ a, (x, a) ∈ services ∧ ∀ p, .require p ∈ fs → ∃ b, a = some b ∧ b.hasAll p = true := by
  simp only [discover, List.mem_map, List.mem_filter, List.all_eq_true]
  constructor
  · rintro ⟨⟨y, a⟩, ⟨hm, hf⟩, rfl⟩
    refine ⟨a, hm, fun p hp => ?_⟩
    have := hf _ hp
    cases a with
    | none => cases this
    | some b => exact ⟨b, rfl, this⟩
  · rintro ⟨a, hm, hf⟩
    refine ⟨(x, a), ⟨hm, fun f hf' => ?_⟩, rfl⟩
    cases f with
    | optional p => rfl
    | require p =>
      obtain ⟨b, rfl, hb⟩ := hf p hf'
      exact hb

/-- C61 fails for dynamically named streams: a service that offers exactly the required
dynamically named stream is not found, and one that cannot feed it is. -/
theorem C61_dynamic_violated :
    ∃ e : Effect Nat,
      (Filter.require [.dyn e]).admits (some (Avail.of [.dyn e])) = false ∧
      (Filter.require [.dyn e]).admits (some (Avail.of [.anon e])) = true ∧
      ¬ Feeds (.anon e) (.dyn e) := by
  refine ⟨streamOf 0 1, by decide, by decide, ?_⟩
  rintro ⟨name, h⟩
  exact h (.atom 1 0) (.atom 1 0) rfl (by simp [route, Stream.effect, streamOf, typeTarget])

/-! ### C62: casts -/

/-- C62, the part that holds: a cast to a pack with the same streams succeeds, and after a
successful cast every anonymous or dynamically named stream of the service and, if the names
of its pack are distinct, every named stream has an output in the target pack that it feeds.
What is missing: that the cast fails when the target pack has streams which the service does
not have, see `C62_violated`, and that it succeeds whenever the service has all streams of the
target pack, see `C62_narrowing_violated`. -/
theorem C62_partial (p q : Pack A) :
    (DistinctNames q → (∀ s, s ∈ p → ∃ s', s' ∈ q ∧ Same s s') → streamCast p q = .ok ()) ∧
    (streamCast p q = .ok () → DistinctNames p →
      ∀ s, s ∈ p → ∃ s', s' ∈ q ∧ Feeds s s') := by
  constructor
  · intro hd h
    rw [streamCast_ok_iff]
    constructor
    · intro t ht
      rw [← List.contains_iff_mem, of_anonymous] at ht ⊢
      obtain ⟨s, hs, hn, hdec⟩ := ht
      obtain ⟨s', hs', hsame⟩ := h s hs
      cases s with
      | named n e => exact absurd rfl (hn n e)
      | anon e =>
        cases s' with
        | anon f => exact ⟨.anon f, hs', nofun, hsame.symm.trans hdec⟩
        | named n f => exact hsame.elim
        | dyn f => exact hsame.elim
      | dyn e =>
        cases s' with
        | anon f => exact hsame.elim
        | named n f => exact hsame.elim
        | dyn f =>
          refine ⟨.dyn f, hs', nofun, ?_⟩
          rw [← hdec]
          exact congrArg Ty.named (Eq.symm hsame)
    · intro r hr
      obtain ⟨e, he, hre⟩ := of_named_mem (named_nodup_find p r hr)
      obtain ⟨s', hs', hsame⟩ := h _ he
      cases s' with
      | anon f => exact hsame.elim
      | dyn f => exact hsame.elim
      | named m f =>
        obtain ⟨hm, ho⟩ := hsame
        rw [← hm] at hs'
        rw [of_named_find hd hs', hre]
        exact ho
  · intro h hd s hs
    rw [streamCast_ok_iff] at h
    obtain ⟨h1, h2⟩ := h
    have anonymous : (∀ n e, s ≠ .named n e) → ∃ s', s' ∈ q ∧ Feeds s s' := by
      intro hn
      have := h1 s.declared (by
        rw [← List.contains_iff_mem, of_anonymous]; exact ⟨s, hs, hn, rfl⟩)
      rw [← List.contains_iff_mem, of_anonymous] at this
      obtain ⟨s', hs', hn', hd'⟩ := this
      exact ⟨s', hs', feeds_of_declared hn hn' hd'.symm⟩
    cases s with
    | anon e => exact anonymous nofun
    | dyn e => exact anonymous nofun
    | named n e =>
      have hm : (n, e.output) ∈ (Avail.of p).named :=
        List.mem_of_find?_eq_some (of_named_find hd hs)
      have := h2 _ hm
      cases hf : (Avail.of q).named.find? fun x => x.1 = n with
      | some x =>
        simp only [hf] at this
        obtain ⟨f, hfm, rfl⟩ := of_named_mem hf
        exact ⟨.named n f, hfm, feeds_named this⟩
      | none =>
        simp only [hf] at this
        rw [← List.contains_iff_mem, of_anonymous] at this
        obtain ⟨s', hs', hn', hd'⟩ := this
        refine ⟨s', hs', "", fun v o hr => ?_⟩
        simp only [Stream.effect] at hr
        cases s' with
        | named m f => exact absurd rfl (hn' m f)
        | anon f =>
          have : f.output = Ty.named e.output := hd'
          simp [route, Stream.effect, hr, routeNamed, nameTarget, typeTarget, this]
        | dyn f =>
          have : f.output = e.output := by simpa [Stream.declared] using hd'
          simp [route, Stream.effect, hr, routeNamed, nameTarget, typeTarget, this]

/-- C62 fails: a service without any stream can be cast to a pack with one, although nothing
can ever come out of it. -/
theorem C62_violated : ∃ e : Effect Nat,
    streamCast [] [.anon e] = .ok () ∧ ¬ ∃ s, s ∈ ([] : Pack Nat) ∧ Feeds s (.anon e) :=
  ⟨streamOf 0 1, by rfl, by rintro ⟨s, hs, _⟩; cases hs⟩

/-- C62 fails the other way around too: a service with two streams cannot be cast to a pack
with one of them, and the error lists a stream that the service does have as missing. -/
theorem C62_narrowing_violated : ∃ e f : Effect Nat,
    streamCast [.anon e, .anon f] [.anon e] = .error ⟨[f.output], []⟩ :=
  ⟨streamOf 0 1, streamOf 2 3, by rfl⟩

/-! ### C63: pending items at the stream exits -/

/-- C63 for dynamically named and anonymous workflow streams, and for scope streams whose
effect type is its own input type: the exit is reachable if an item of the session waits
there and otherwise as reachable as the scope, and a cleanup drops the items of its session
and no others. Missing: statically named streams and scope streams in general, see
`C63_static_violated` and `C63_scope_violated`. -/
theorem C63_partial (r : Redirect A) (hr : r.Regular) (n : Node A) (scope session : Nat)
    (q : List (Inp Nat (Val A))) (hq : n.stores r.storageTy = some q)
    (hscope : n.scope = some scope) (up : Except Err Bool) :
    r.isReachable n session up =
      (if pendingOf n r.storageTy session = [] then up else .ok true) ∧
    (∀ s, pendingOf (r.cleanup n session) r.storageTy s =
      if s = session then [] else pendingOf n r.storageTy s) := by
  have haudit : r.auditTy = r.storageTy := by
    cases r with
    | static name e => exact hr.elim
    | dynamic e => rfl
    | anonymous e => rfl
    | «scoped» x e => exact hr
  constructor
  · simp only [Redirect.isReachable, haudit, hasInput, Node.at, hq, pendingOf, Option.getD_some,
      hscope]
    by_cases h : ∃ i, i ∈ q ∧ i.session = session
    · obtain ⟨i, hi, hs⟩ := h
      have h1 : (q.any fun i => decide (i.session = session)) = true := by
        rw [List.any_eq_true]; exact ⟨i, hi, by simpa using hs⟩
      have h2 : ¬ (q.filter fun i => decide (i.session = session)) = [] := by
        rw [List.filter_eq_nil_iff]
        intro h; exact h i hi (by simpa using hs)
      simp [h1, h2]
    · have h1 : (q.any fun i => decide (i.session = session)) = false := by
        rw [List.any_eq_false]
        intro i hi hs; exact h ⟨i, hi, by simpa using hs⟩
      have h2 : (q.filter fun i => decide (i.session = session)) = [] := by
        rw [List.filter_eq_nil_iff]
        intro i hi hs; exact h ⟨i, hi, by simpa using hs⟩
      simp [h1, h2]
  · intro s
    simp only [Redirect.cleanup, haudit, hq, pendingOf, Node.setStore, if_true, Option.getD_some,
      List.filter_filter]
    by_cases hs : s = session
    · subst hs
      simp
    · simp only [hs, if_false]
      apply List.filter_congr
      intro i _
      by_cases hi : i.session = s
      · have : ¬ i.session = session := by rw [hi]; exact hs
        simp [hi, hs]
      · simp [hi]

/-- C63 fails for a scope stream in general (`StreamOf<T>` for instance): asking whether its
exit is reachable is an error in every state, with or without waiting items, and a cleanup
leaves the waiting items of its session in place. -/
theorem C63_scope_violated (e : Effect A) (h : e.self ≠ e.input) (target : Nat) (n : Node A)
    (hfresh : ∀ t, n.stores t = none) (q : List (Inp Nat (Val A))) (session : Nat)
    (up : Except Err Bool) :
    let n' := ((Redirect.scoped target e).setup n).setStore e.input (some q)
    (Redirect.scoped target e).isReachable n' session up = .error .broken ∧
    (Redirect.scoped target e).cleanup n' session = n' := by
  simp [Redirect.isReachable, Redirect.cleanup, Redirect.auditTy, Redirect.setup, hasInput,
    Node.at, Node.setStore, Redirect.storageTy, h, hfresh]

/-- C63 fails in the same way for the statically named streams of a workflow. -/
theorem C63_static_violated (e : Effect A) (name : String) (n : Node A)
    (hfresh : ∀ t, n.stores t = none) (q : List (Inp Nat (Val A))) (session : Nat)
    (up : Except Err Bool) :
    let n' := ((Redirect.static name e).setup n).setStore e.input (some q)
    (Redirect.static name e).isReachable n' session up = .error .broken ∧
    (Redirect.static name e).cleanup n' session = n' := by
  simp [Redirect.isReachable, Redirect.cleanup, Redirect.auditTy, Redirect.setup, hasInput,
    Node.at, Node.setStore, Redirect.storageTy, hfresh, Ty.named_ne]

/-! ### Examples -/

/-- A node with a numbered stream "a", an anonymous stream and a dynamically named stream. -/
def exPack : Pack Nat := [.named "a" (streamOf 0 1), .anon (streamOf 0 1), .dyn (streamOf 0 1)]

def exNode (t : Ty) : Node Nat := { stores := fun u => if u = t then some [] else none }

def exWorld : World Nat :=
  { nodes := fun e => match e with
      | 0 => some { map := some (registerAll exPack [1, 2, 3] {}).1 }
      | 1 => some (exNode (.base 1))
      | 2 => some (exNode (.base 1))
      | 3 => some (exNode (.named (.base 1)))
      | _ => none
    active := fun s => s = 9 }

/-- A provider with another pack: its stream "a" is found by name, "b" ends up at the
dynamically named output, and the anonymous one at the anonymous output. -/
example :
    let w' := exWorld.sendAll 0 9
      ([((.named "a" (streamOf 0 1) : Stream Nat), ("", .atom 1 10)),
        (.named "b" (streamOf 0 1), ("", .atom 1 11)), (.anon (streamOf 0 1), ("", .atom 1 12)),
        (.dyn (streamOf 0 1), ("a", .atom 1 13)), (.dyn (streamOf 0 1), ("c", .atom 1 14))].map
        fun x => (x.1.port ((exWorld.nodes 0).bind (·.map)), x.2))
    w'.inbox 1 (.base 1) = [⟨9, .atom 1 10⟩, ⟨9, .atom 1 13⟩] ∧
    w'.inbox 2 (.base 1) = [⟨9, .atom 1 12⟩] ∧
    w'.inbox 3 (.named (.base 1)) =
      [⟨9, .named "b" (.atom 1 11)⟩, ⟨9, .named "c" (.atom 1 14)⟩] := by decide

example : (exWorld.nodes 0).bind (·.map) = some (registerAll exPack [1, 2, 3] {}).1 := rfl

/-- The hypotheses of `C39_own_output` for the dynamically named stream of `exPack`. -/
example : ∀ y, y ∈ [((.named "a" (streamOf 0 1) : Stream Nat), 1), (.anon (streamOf 0 1), 2)] →
    clash y.1 (.dyn (streamOf 0 1)) = false := by
  intro y hy
  simp only [List.mem_cons, List.not_mem_nil, or_false] at hy
  rcases hy with rfl | rfl <;> decide

/-- Two registrations of the name "a": the second entity is reported. -/
example : (registerAll (A := Nat)
    [.named "a" (streamOf 0 1), .dyn (streamOf 0 1), .named "a" (streamOf 0 2)] [1, 2, 3] {}).2 =
    [3] := by decide

/-- A workflow stream exit with one waiting item. -/
def exFlow : World Nat :=
  { exWorld with nodes := fun e => match e with
      | 7 => some { exNode (.named (.base 1)) with
          stores := fun u => if u = .named (.base 1) then some [⟨5, .named "a" (.atom 1 10)⟩]
            else none
          scope := some 8 }
      | 8 => some { exits := some [(5, ⟨0, 9⟩)] }
      | e => exWorld.nodes e }

example : ((Redirect.dynamic (streamOf 0 1)).exec 7 exFlow).1.inbox 1 (.base 1) =
    [⟨9, .atom 1 10⟩] := by decide

example : exFlow.inbox 7 (Redirect.dynamic (streamOf (A := Nat) 0 1)).storageTy =
    [⟨5, .named "a" (.atom 1 10)⟩] := by decide

/-- The effects of `StreamOf` are sound. -/
example : (streamOf (A := Nat) 0 1).Sound := by
  intro v o hv hr
  simp only [streamOf, Except.ok.injEq] at hr
  subst hr; exact hv

/-- The hypotheses of `C61_partial`: a service with a named and an anonymous stream, and a
filter that requires one of them. -/
example : DistinctNames ([.named "a" (streamOf 0 1), .anon (streamOf 0 2)] : Pack Nat) ∧
    (Filter.require [.anon (streamOf 0 2)] : Filter Nat).admits
      (some (Avail.of ([.named "a" (streamOf 0 1), .anon (streamOf 0 2)] : Pack Nat))) = true ∧
    discover [(3, none), (4, some (Avail.of ([.anon (streamOf 0 2)] : Pack Nat)))]
      [(Filter.require [.anon (streamOf 0 2)] : Filter Nat)] = [4] := by
  refine ⟨by unfold DistinctNames; decide, by decide, by decide⟩

example : streamCast ([.named "a" (streamOf 0 1)] : Pack Nat) [.dyn (streamOf 0 1)] = .ok () := by
  rfl

end Verif.Streams
