import Verif.Views.Lemmas

/- Properties C83 and C84: accesses to a buffer through keys. -/
namespace Verif.Views

open Verif.Buffer (Storage Out Op SpecState specStep step)

section
variable {S A : Type} [DecidableEq S]
variable {Ty : Type} [DecidableEq Ty] {V : Ty → Type} {J : Type}

/-- **C83**, full statement: whatever is done to a buffer, through typed, erased and JSON
keys and by the workflow itself, the buffer holds the messages and the callers see the
results that the same calls on the typed buffer give. The conversions to and from JSON
are those of the message types. -/
def C83_Statement (S A : Type) [DecidableEq S] {Ty : Type} [DecidableEq Ty] (V : Ty → Type)
    (J : Type) : Prop :=
  ∀ (sd : Serde V J) (t : Ty) (w : World S A V t) (es : List (Event S A V J t)),
    (events sd w es).2 = (specEvents sd step w.storage es).2 ∧
    ∀ s, (events sd w es).1.storage.iter s = (specEvents sd step w.storage es).1.iter s

/-- **C83** (partial): this holds for every history that does not push as oldest through
a JSON handle. -/
theorem C83_keys_act_alike_partial (sd : Serde V J) (t : Ty) (w : World S A V t)
    (es : List (Event S A V J t))
    (hc : ∀ e ∈ es, ∀ c ∈ e.calls, c.isJsonAsOldest = false) :
    (events sd w es).2 = (specEvents sd step w.storage es).2 ∧
    ∀ s, (events sd w es).1.storage.iter s = (specEvents sd step w.storage es).1.iter s := by
  have h := events_obey sd w es hc
  exact ⟨congrArg Prod.snd h, fun s => congrArg (fun r => r.1.iter s) h⟩

/-- **C83** (partial, down to lists of messages): together with C02. In a buffer that
starts empty, the messages of a session are a list, oldest first, on which every call
through a typed, erased or JSON key has the effect and the result that the
documentation of the typed buffer gives it. Besides pushing as oldest through a JSON
handle this leaves out what C02 leaves out: ranged drains, and `push_as_oldest` on a
`KeepFirst` buffer without capacity. -/
theorem C83_keys_act_on_lists_partial (sd : Serde V J) (t : Ty) (r : Verif.Buffer.Retention)
    (w : World S A V t) (es : List (Event S A V J t))
    (hw : w.storage = Storage.new r)
    (hc : ∀ e ∈ es, ∀ c ∈ e.calls, c.isJsonAsOldest = false)
    (ho : ∀ e ∈ es, ∀ o ∈ e.ops sd, Verif.Buffer.notRangedDrain o = true ∧
      (r = .keepFirst 0 → Verif.Buffer.notPushAsOldest o = true)) :
    let spec := specEvents (S := S) (A := A) sd specStep (⟨r, fun _ => none⟩ : SpecState S (V t)) es
    (events sd w es).2 = spec.2 ∧
    ∀ s, (events sd w es).1.storage.iter s = (spec.1.content s).getD [] := by
  have key : ∀ (es : List (Event S A V J t)) (b : Storage S (V t)), Verif.Buffer.Inv b →
      b.retention = r →
      (∀ e ∈ es, ∀ o ∈ e.ops sd, Verif.Buffer.notRangedDrain o = true ∧
        (r = .keepFirst 0 → Verif.Buffer.notPushAsOldest o = true)) →
      Verif.Buffer.abs (specEvents sd step b es).1 =
        (specEvents sd specStep (Verif.Buffer.abs b) es).1 ∧
      (specEvents sd step b es).2 = (specEvents sd specStep (Verif.Buffer.abs b) es).2 := by
    intro es
    induction es with
    | nil => intros; exact ⟨rfl, rfl⟩
    | cons e es ih =>
      intro b hi hr ho
      have ho' := ho e (by simp)
      have hos : ∀ e ∈ es, ∀ o ∈ e.ops sd, Verif.Buffer.notRangedDrain o = true ∧
          (r = .keepFirst 0 → Verif.Buffer.notPushAsOldest o = true) :=
        fun e h => ho e (by simp [h])
      cases e with
      | flow s o =>
        have ho1 := ho' o (by simp [Event.ops])
        have h1 := Verif.Buffer.step_refines b s o hi (by rw [hr]; exact ho1.2) ho1.1
        have h2 := ih (step b s o).1
          (Verif.Buffer.step_inv b s o hi (by rw [hr]; exact ho1.2))
          (by rw [Verif.Buffer.step_retention, hr]) hos
        have e1 : Verif.Buffer.abs (step b s o).1 = (specStep (Verif.Buffer.abs b) s o).1 :=
          congrArg Prod.fst h1
        rw [e1] at h2
        simp only [specEvents]
        exact ⟨h2.1, by rw [h2.2]⟩
      | access a =>
        have h1 := specCalls_refines sd r a.session b a.calls hi hr (by
          intro c hm o f ha
          refine ho' o ?_
          simp only [Event.ops, List.mem_filterMap]
          exact ⟨c, hm, by rw [ha]⟩)
        simp only at h1
        have h2 := ih _ h1.2.2.1 h1.2.2.2 hos
        rw [h1.1] at h2
        simp only [specEvents]
        exact ⟨h2.1, by rw [h2.2, h1.2.1]⟩
  have h1 := C83_keys_act_alike_partial sd t w es hc
  have h2 := key es w.storage (by rw [hw]; exact Verif.Buffer.inv_new r) (by rw [hw]; rfl) ho
  have h0 : Verif.Buffer.abs w.storage = ⟨r, fun _ => none⟩ := by rw [hw]; rfl
  rw [h0] at h2
  refine ⟨h1.1.trans h2.2, fun s => ?_⟩
  rw [h1.2 s, ← h2.1]
  simp only [Verif.Buffer.abs, Storage.iter]
  cases (specEvents sd step w.storage es).1.queues s <;> rfl

end

/-! ### Examples -/

/-- Two types of messages: `true` for numbers and `false` for bits. -/
abbrev ExV : Bool → Type := fun b => if b then Nat else Bool

/-- JSON is a number. Bits are written as 0 and 1; other numbers are not bits. -/
def exSerde : Serde ExV Nat where
  enc {t} := match t with
    | true => fun (x : Nat) => some x
    | false => fun (x : Bool) => some x.toNat
  dec t j := match t with
    | true => some (j : Nat)
    | false => if j = 0 then some false else if j = 1 then some true else none

def exWorld (r : Verif.Buffer.Retention) : World Nat Nat ExV true :=
  { storage := Storage.new r, gate := fun _ => none, notes := [] }

/-- A history with all three kinds of keys and with deliveries by the workflow: the
hypotheses of the theorems hold and messages come out of the buffer. -/
example : ∃ es : List (Event Nat Nat ExV Nat true),
    (∀ e ∈ es, ∀ c ∈ e.calls, c.isJsonAsOldest = false) ∧
    (∀ e ∈ es, ∀ o ∈ e.ops exSerde, Verif.Buffer.notRangedDrain o = true ∧
      ((.keepLast 3 : Verif.Buffer.Retention) = .keepFirst 0 →
        Verif.Buffer.notPushAsOldest o = true)) ∧
    (events exSerde (exWorld (.keepLast 3)) es).1.storage.iter 0 = ([7, 1, 9] : List Nat) := by
  refine ⟨[.flow 0 .ensure, .flow 0 (.forcePush (5 : Nat)),
    .access ⟨0, 1, .param, [.any (.push ⟨true, (1 : Nat)⟩), .any (.push ⟨false, true⟩),
      .json (.oldestMut (.insert 7))]⟩,
    .access ⟨0, 2, .param, [.json (.pushJson 2), .json .pullNewest, .typed (.push (9 : Nat))]⟩],
    ?_, ?_, rfl⟩
  · simp [Event.calls, Call.isJsonAsOldest]
  · simp [Event.ops, ask, askAny, askJson, askTyped, Asks.via, offer, offerJson, exSerde,
      Verif.Buffer.notRangedDrain]

/-- **C83** is false of the code as it is: a message pushed as oldest through a JSON
handle becomes the newest (json_buffer.rs:727-736 calls `push`). -/
theorem C83_keys_act_alike_violated : ¬ C83_Statement Nat Nat ExV Nat := by
  intro h
  have h1 := (h exSerde true (exWorld .keepAll)
    [.flow 0 .ensure, .flow 0 (.forcePush (5 : Nat)),
     .access ⟨0, 1, .param, [.json (.pushJsonAsOldest 3)]⟩]).2 0
  have h2 : ([5, 3] : List Nat) = [3, 5] := h1
  exact absurd h2 (by decide)

section
variable {S A : Type} [DecidableEq S]
variable {Ty : Type} [DecidableEq Ty] {V : Ty → Type} {J : Type}

/-- The messages of a session. -/
def World.contents {t : Ty} (w : World S A V t) (s : S) : List (V t) := w.storage.iter s

/-- The notification an access owes the listeners: about its session, and naming the
accessor that is to be skipped unless closed loops were allowed. -/
def Access.note {t : Ty} (a : Access S A V J t) : Note S A :=
  ⟨a.session, if a.calls.any Call.isAllowClosedLoops then none else some a.accessor⟩

/-- At some moment of the access the session holds other messages than before it. -/
def Access.Changes (sd : Serde V J) {t : Ty} (w : World S A V t) (a : Access S A V J t) : Prop :=
  ∃ cs cs', a.calls = cs ++ cs' ∧
    (access sd w { a with calls := cs }).1.contents a.session ≠ w.contents a.session

/-- **C84**, full statement: an access through a key that changes the messages of its
session, or that pulses, hands the world exactly one notification for the listeners. An
access that only looks changes nothing and notifies nobody. No access touches the
messages of another session or notifies about anything else. -/
def C84_Statement (S A : Type) [DecidableEq S] {Ty : Type} [DecidableEq Ty] (V : Ty → Type)
    (J : Type) : Prop :=
  ∀ (sd : Serde V J) (t : Ty) (w : World S A V t) (a : Access S A V J t),
    ((a.Changes sd w ∨ ∃ c ∈ a.calls, c.isPulse = true) →
      (access sd w a).1.notes = w.notes ++ [a.note]) ∧
    ((∀ c ∈ a.calls, c.isRead = true) →
      (access sd w a).1.notes = w.notes ∧
      ∀ s, (access sd w a).1.contents s = w.contents s) ∧
    ((access sd w a).1.notes = w.notes ∨ (access sd w a).1.notes = w.notes ++ [a.note]) ∧
    ∀ s, s ≠ a.session → (access sd w a).1.contents s = w.contents s

/-- **C84** (partial): this holds for accesses by a system parameter that use neither
`push_any` nor `push_any_as_oldest`. What does not depend on notifications getting
through holds for all accesses. -/
theorem C84_changes_notify_partial (sd : Serde V J) (t : Ty) (w : World S A V t)
    (a : Access S A V J t) :
    (a.route = .param → (∀ c ∈ a.calls, c.isPushAny = false) → a.Changes sd w →
      (access sd w a).1.notes = w.notes ++ [a.note]) ∧
    (a.route = .param → (∃ c ∈ a.calls, c.isPulse = true) →
      (access sd w a).1.notes = w.notes ++ [a.note]) ∧
    ((∀ c ∈ a.calls, c.isRead = true) →
      (access sd w a).1.notes = w.notes ∧
      ∀ s, (access sd w a).1.contents s = w.contents s) ∧
    ((access sd w a).1.notes = w.notes ∨ (access sd w a).1.notes = w.notes ++ [a.note]) ∧
    ∀ s, s ≠ a.session → (access sd w a).1.contents s = w.contents s := by
  have hn := access_notes sd w a
  have hyes : a.route = .param →
      (calls sd (⟨w.storage, a.session, some a.accessor, false⟩ : Handle S A (V t))
        a.calls).1.modified = true → (access sd w a).1.notes = w.notes ++ [a.note] := by
    intro hr hm
    rw [hn, hr, hm]; rfl
  refine ⟨?_, ?_, ?_, ?_, ?_⟩
  · rintro hr hp ⟨cs, cs', hcs, hne⟩
    refine hyes hr ?_
    cases hm : (calls sd (⟨w.storage, a.session, some a.accessor, false⟩ : Handle S A (V t))
        a.calls).1.modified with
    | true => rfl
    | false =>
      exfalso
      apply hne
      rw [hcs, calls_append] at hm
      have hm' : (calls sd (⟨w.storage, a.session, some a.accessor, false⟩ : Handle S A (V t))
          cs).1.modified = false := by
        cases e : (calls sd (⟨w.storage, a.session, some a.accessor, false⟩ : Handle S A (V t))
            cs).1.modified with
        | false => rfl
        | true => rw [calls_sticky sd _ cs' e] at hm; cases hm
      have hq := calls_quiet sd _ cs (fun c h => hp c (by rw [hcs]; simp [h])) hm'
      simp only [World.contents, access]
      rw [hq]
  · intro hr hp
    exact hyes hr (calls_pulse sd _ _ hp)
  · intro hread
    have hq := calls_reads sd (⟨w.storage, a.session, some a.accessor, false⟩ :
      Handle S A (V t)) a.calls hread rfl
    refine ⟨?_, fun s => ?_⟩
    · rw [hn, hq.1]
      cases a.route <;> simp [Route.applied]
    · simp only [World.contents, access]
      rw [hq.2]
  · rw [hn]
    cases a.route with
    | world => left; simp [Route.applied]
    | param =>
      simp only [Route.applied]
      split
      · right; rfl
      · left; simp
  · intro s hs
    have hf := calls_frame sd (⟨w.storage, a.session, some a.accessor, false⟩ :
      Handle S A (V t)) a.calls s hs
    simp only [World.contents, access, Storage.iter]
    rw [hf]

omit [DecidableEq Ty] in
/-- **C84** for gates (partial): the gate of a buffer seen through a key. An access by a
system parameter that opens a closed gate hands the world exactly one notification; an
access that opens no gate hands over none; gates of other sessions stay as they are. -/
theorem C84_gate_opening_notifies_partial {t : Ty} (w : World S A V t) (a : GateAccess S A) :
    (a.route = .param → (∃ cs cs', a.calls = cs ++ .openGate :: cs' ∧
        ((gateAccess w { a with calls := cs }).1.gate a.session).getD true = false) →
      (gateAccess w a).1.notes = w.notes ++
        [⟨a.session, if GCall.allowClosedLoops ∈ a.calls then none else some a.accessor⟩]) ∧
    ((∀ cs cs', a.calls = cs ++ .openGate :: cs' →
        ((gateAccess w { a with calls := cs }).1.gate a.session).getD true = true) →
      (gateAccess w a).1.notes = w.notes) ∧
    ∀ s, s ≠ a.session → (gateAccess w a).1.gate s = w.gate s := by
  have h := gateCalls_facts
    (⟨w.gate, a.session, some a.accessor, false⟩ : GateHandle S A) a.calls
  have hn : (gateAccess w a).1.notes = w.notes ++ a.route.applied
      (if (gateCalls (⟨w.gate, a.session, some a.accessor, false⟩ : GateHandle S A)
          a.calls).1.modified
       then [⟨a.session, if GCall.allowClosedLoops ∈ a.calls then none else some a.accessor⟩]
       else []) := by
    simp only [gateAccess]
    rw [h.1, h.2.1]
  refine ⟨?_, ?_, h.2.2.2⟩
  · rintro hr ⟨cs, cs', e, hg⟩
    rw [hn, hr, h.2.2.1.mpr (.inr ⟨cs, cs', e, hg⟩)]
    rfl
  · intro hno
    rw [hn]
    cases hm : (gateCalls (⟨w.gate, a.session, some a.accessor, false⟩ : GateHandle S A)
        a.calls).1.modified with
    | false => cases a.route <;> simp [Route.applied]
    | true =>
      rcases h.2.2.1.mp hm with e | ⟨xs, ys, e, hg⟩
      · cases e
      · have h' : ((gateCalls (⟨w.gate, a.session, some a.accessor, false⟩ : GateHandle S A)
            xs).1.gate a.session).getD true = true := hno xs ys e
        rw [hg] at h'
        cases h'

/-- What a call asks of a gate: `true` to open it, `false` to close it. -/
def GCall.asks : GCall → Option Bool
  | .openGate => some true
  | .closeGate => some false
  | _ => none

/-- The last thing that some calls ask of a gate, if any. -/
def lastAsked (cs : List GCall) : Option Bool := (cs.filterMap GCall.asks).getLast?

omit [DecidableEq Ty] in
/-- **C84** for gates: in a session that has an entry the gate is as it was last asked to be, and
each look in between sees what was last asked before it. In a session without an entry every look
sees an open gate and nothing changes. -/
theorem C84_gate_effect {t : Ty} (w : World S A V t) (a : GateAccess S A) :
    (gateAccess w a).1.gate a.session =
        (w.gate a.session).map (fun g => (lastAsked a.calls).getD g) ∧
    ∀ cs cs', a.calls = cs ++ .get :: cs' →
      (gateAccess w a).2[cs.length]? =
        some (some (((w.gate a.session).map (fun g => (lastAsked cs).getD g)).getD true)) := by
  have last_cons : ∀ c cs (g : Bool), (lastAsked (c :: cs)).getD g =
      (lastAsked cs).getD (c.asks.getD g) := by
    intro c cs g
    unfold lastAsked
    cases hc : c.asks with
    | none => simp [List.filterMap_cons, hc]
    | some x =>
      simp only [List.filterMap_cons, hc, Option.getD_some]
      rw [List.getLast?_cons]
      simp
  have one : ∀ (h : GateHandle S A) c, (gateCall h c).1.session = h.session ∧
      (gateCall h c).1.gate h.session = (h.gate h.session).map fun g => c.asks.getD g := by
    intro h c
    refine ⟨(gateCall_facts h c).1, ?_⟩
    cases c <;> simp only [gateCall, GCall.asks]
    · simp
    · simp
    · cases hg : h.gate h.session with
      | none => simp [hg]
      | some g => cases g <;> simp [hg]
    · cases hg : h.gate h.session with
      | none => simp [hg]
      | some g => simp
  have key : ∀ cs (h : GateHandle S A),
      (gateCalls h cs).1.gate h.session =
        (h.gate h.session).map (fun g => (lastAsked cs).getD g) ∧
      ∀ xs ys, cs = xs ++ .get :: ys → (gateCalls h cs).2[xs.length]? =
        some (some (((h.gate h.session).map (fun g => (lastAsked xs).getD g)).getD true)) := by
    intro cs
    induction cs with
    | nil =>
      intro h
      refine ⟨by simp [gateCalls, lastAsked], ?_⟩
      intro xs ys e
      cases xs <;> cases e
    | cons c cs ih =>
      intro h
      obtain ⟨i1, i2⟩ := ih (gateCall h c).1
      obtain ⟨o1, o2⟩ := one h c
      rw [o1, o2] at i1
      refine ⟨?_, ?_⟩
      · simp only [gateCalls]
        rw [i1, Option.map_map]
        congr 1
        funext g
        exact (last_cons c cs g).symm
      · intro xs ys e
        cases xs with
        | nil =>
          simp only [List.nil_append, List.cons.injEq] at e
          obtain ⟨rfl, -⟩ := e
          simp [gateCalls, gateCall, lastAsked]
        | cons x xs =>
          simp only [List.cons_append, List.cons.injEq] at e
          obtain ⟨rfl, e⟩ := e
          simp only [gateCalls, List.length_cons, List.getElem?_cons_succ]
          rw [i2 xs ys e, o1, o2, Option.map_map]
          congr 4
          funext g
          exact (last_cons c xs g).symm
  exact key a.calls ⟨w.gate, a.session, some a.accessor, false⟩

end

/-- A push through an erased key and a read through a JSON key, with one notification
that skips the accessor. -/
example : ∃ (a : Access Nat Nat ExV Nat true),
    a.route = .param ∧ (∀ c ∈ a.calls, c.isPushAny = false) ∧
    a.Changes exSerde
      { (exWorld .keepAll) with storage := ((Storage.new .keepAll).ensureSession 4) } ∧
    (access exSerde
      { (exWorld .keepAll) with storage := ((Storage.new .keepAll).ensureSession 4) } a).1.notes =
      [⟨4, some 9⟩] := by
  refine ⟨⟨4, 9, .param, [.any (.push ⟨true, (1 : Nat)⟩), .json .oldest, .typed .pull]⟩, rfl,
    by simp [Call.isPushAny],
    ⟨[.any (.push ⟨true, (1 : Nat)⟩)], [.json .oldest, .typed .pull], rfl, ?_⟩, rfl⟩
  intro h
  have h' : ([1] : List Nat) = [] := h
  cases h'

/-- A gate that is closed and then opened. -/
example : (gateAccess { (exWorld .keepAll) with gate := fun _ => some true }
    ⟨4, 9, .param, [.closeGate, .get, .allowClosedLoops, .openGate]⟩).1.notes = [⟨4, none⟩] := rfl

/-- What is seen of it, and what becomes of it. -/
example :
    let r := gateAccess { (exWorld .keepAll) with gate := fun _ => some true }
      ⟨4, 9, .param, [.get, .closeGate, .get, .openGate, .get, .closeGate]⟩
    r.2 = [some true, none, some false, none, some true, none] ∧ r.1.gate 4 = some false ∧
      r.1.gate 5 = some true := ⟨rfl, rfl, rfl⟩

/-- **C84** is false of the code as it is: a message put in with `push_any` wakes no
listener (any_buffer.rs:518-523 does not mark the handle as modified). -/
theorem C84_push_any_violated : ¬ C84_Statement Nat Nat ExV Nat := by
  intro h
  have h1 := (h exSerde true
    { (exWorld .keepAll) with storage := ((Storage.new .keepAll).ensureSession 4) }
    ⟨4, 9, .param, [.any (.pushAny ⟨true, (1 : Nat)⟩)]⟩).1
    (.inl ⟨[.any (.pushAny ⟨true, (1 : Nat)⟩)], [], rfl, fun e => by
      have h' : ([1] : List Nat) = [] := e
      cases h'⟩)
  cases h1

/-- **C84** is false of the code as it is for another reason: a message put in through
`World::buffer_mut` wakes no listener, because the `SystemState` that holds the
notification is dropped (buffer.rs:556-570). -/
theorem C84_world_access_violated : ∃ (w : World Nat Nat ExV true) (a : Access Nat Nat ExV Nat true),
    (∀ c ∈ a.calls, c.isPushAny = false) ∧ a.Changes exSerde w ∧
    (access exSerde w a).1.notes = w.notes :=
  ⟨{ (exWorld .keepAll) with storage := ((Storage.new .keepAll).ensureSession 4) },
    ⟨4, 9, .world, [.typed (.push (1 : Nat))]⟩, by simp [Call.isPushAny],
    ⟨[.typed (.push (1 : Nat))], [], rfl, fun e => by
      have h' : ([1] : List Nat) = [] := e
      cases h'⟩, rfl⟩

end Verif.Views
