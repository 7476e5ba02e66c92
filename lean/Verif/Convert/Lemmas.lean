import Verif.Convert.Spec

/-
Lemmas for Verif/Convert/Props.lean: every connector sends an output along the route that
`routeOf` names, and a route that has been made is left alone by later connections.
-/
namespace Verif.Convert

set_option linter.unusedSimpArgs false

def Net.at (n : Net) (o : Out) : List (Out × Slot) := n.wires.filter fun w => decide (w.1 = o)
def Net.eat (n : Net) (o : Out) : List Out := n.errs.filter fun e => decide (e = o)

/-- Converter `i` is complete. -/
structure ConvOk (n : Net) (i : Nat) (k : Kind) (t : Ty) (s : Slot) : Prop where
  conv : n.convs[i]? = some (k, t)
  wok : n.at (.ok i) = [(.ok i, s)]
  werr : n.at (.err i) = []
  eok : n.eat (.ok i) = []
  eerr : n.eat (.err i) = if k.fallible then [.err i] else []

/-- Nothing refers to converters that do not exist yet, or gives the output of an operation
to the error target. -/
structure Fresh (n : Net) : Prop where
  wires : ∀ i, n.convs.length ≤ i → n.at (.ok i) = [] ∧ n.at (.err i) = []
  errs : ∀ i, n.convs.length ≤ i → n.eat (.ok i) = [] ∧ n.eat (.err i) = []
  ops : ∀ o, n.eat (.op o) = []

/-- What stays when a network is extended. -/
structure Grew (n n' : Net) : Prop where
  conv : ∀ i k t s, ConvOk n i k t s → ConvOk n' i k t s
  fresh : Fresh n → Fresh n'

theorem Grew.refl (n : Net) : Grew n n := ⟨fun _ _ _ _ h => h, fun h => h⟩

theorem Grew.trans {a b c : Net} (h : Grew a b) (h' : Grew b c) : Grew a c :=
  ⟨fun i k t s x => h'.conv i k t s (h.conv i k t s x), fun x => h'.fresh (h.fresh x)⟩

def wire (n : Net) (o : Out) (s : Slot) : Net := { n with wires := n.wires ++ [(o, s)] }

def addConv (n : Net) (k : Kind) (t : Ty) (s : Slot) : Net :=
  { convs := n.convs ++ [(k, t)]
    wires := n.wires ++ [(.ok n.convs.length, s)]
    errs := n.errs ++ if k.fallible then [.err n.convs.length] else [] }

theorem at_wire (n : Net) (o o' : Out) (s : Slot) :
    (wire n o s).at o' = if o = o' then n.at o' ++ [(o, s)] else n.at o' := by
  unfold wire Net.at
  simp only [List.filter_append, List.filter_cons, List.filter_nil]
  by_cases h : o = o' <;> simp [h]

theorem eat_wire (n : Net) (o o' : Out) (s : Slot) : (wire n o s).eat o' = n.eat o' := rfl

theorem at_addConv (n : Net) (k : Kind) (t : Ty) (s : Slot) (o : Out) :
    (addConv n k t s).at o
      = if Out.ok n.convs.length = o then n.at o ++ [(.ok n.convs.length, s)] else n.at o := by
  unfold addConv Net.at
  simp only [List.filter_append, List.filter_cons, List.filter_nil]
  by_cases h : Out.ok n.convs.length = o <;> simp [h]

theorem eat_addConv (n : Net) (k : Kind) (t : Ty) (s : Slot) (o : Out) :
    (addConv n k t s).eat o
      = if k.fallible = true ∧ Out.err n.convs.length = o then n.eat o ++ [.err n.convs.length]
        else n.eat o := by
  unfold addConv Net.eat
  simp only [List.filter_append]
  by_cases h : k.fallible = true
  · by_cases h' : Out.err n.convs.length = o <;> simp [h, h']
  · simp [h]

theorem grew_wire (n : Net) (o : Nat) (s : Slot) : Grew n (wire n (.op o) s) := by
  refine ⟨fun i k t s' h => ⟨h.conv, ?_, ?_, h.eok, h.eerr⟩, fun h => ⟨fun i hi => ?_, h.errs,
    h.ops⟩⟩
  · rw [at_wire]; simpa using h.wok
  · rw [at_wire]; simpa using h.werr
  · rw [at_wire, at_wire]; simpa using h.wires i hi

theorem lt_of_conv {n : Net} {i : Nat} {c : Kind × Ty} (h : n.convs[i]? = some c) :
    i < n.convs.length := by
  rcases Nat.lt_or_ge i n.convs.length with h' | h'
  · exact h'
  · rw [List.getElem?_eq_none h'] at h; cases h

theorem grew_addConv (n : Net) (k : Kind) (t : Ty) (s : Slot) : Grew n (addConv n k t s) := by
  refine ⟨fun i k' t' s' h => ?_, fun h => ⟨fun i hi => ?_, fun i hi => ?_, fun o => ?_⟩⟩
  · have hl := lt_of_conv h.conv
    have hne : n.convs.length ≠ i := by omega
    refine ⟨?_, ?_, ?_, ?_, ?_⟩
    · show (n.convs ++ [(k, t)])[i]? = _
      rw [List.getElem?_append_left hl]; exact h.conv
    · rw [at_addConv]; simpa [hne] using h.wok
    · rw [at_addConv]; simpa using h.werr
    · rw [eat_addConv]; simpa using h.eok
    · rw [eat_addConv]; simpa [hne] using h.eerr
  · have hi' : n.convs.length + 1 ≤ i := by simpa [addConv] using hi
    have hne : n.convs.length ≠ i := by omega
    rw [at_addConv, at_addConv]
    simpa [hne] using h.wires i (by omega)
  · have hi' : n.convs.length + 1 ≤ i := by simpa [addConv] using hi
    have hne : n.convs.length ≠ i := by omega
    rw [eat_addConv, eat_addConv]
    simpa [hne] using h.errs i (by omega)
  · rw [eat_addConv]; simpa using h.ops o

theorem conv_addConv {n : Net} (hf : Fresh n) (k : Kind) (t : Ty) (s : Slot) :
    ConvOk (addConv n k t s) n.convs.length k t s := by
  have hw := hf.wires _ (Nat.le_refl n.convs.length)
  have he := hf.errs _ (Nat.le_refl n.convs.length)
  refine ⟨?_, ?_, ?_, ?_, ?_⟩
  · show (n.convs ++ [(k, t)])[n.convs.length]? = _
    simp
  · rw [at_addConv]; simp [hw.1]
  · rw [at_addConv]; simp [hw.2]
  · rw [eat_addConv]; simp [he.1]
  · rw [eat_addConv]
    by_cases h : k.fallible = true <;> simp [h, he.2]

/-! ### Connecting -/

theorem connectTo_ok {n : Net} {o : Out} {ty : Ty} {s : Slot} (h : n.slotTy s = some ty) :
    connectTo n o ty s = .ok (wire n o s) := by
  unfold connectTo wire; rw [if_pos h]

theorem connectTo_conv {n : Net} {o : Out} {ty : Ty} {i : Nat} {k : Kind} {t : Ty} {s : Slot}
    (h : ConvOk n i k t s) (ht : k.input t = ty) :
    connectTo n o ty (.conv i) = .ok (wire n o (.conv i)) := by
  apply connectTo_ok
  show (n.convs[i]?).map _ = _
  rw [h.conv]; simp [ht]

/-- The type of a slot does not depend on the network, other than that of a converter. -/
def Slot.fixedTy : Slot → Option Ty
  | .input _ t => some t
  | .cancelStr _ => some string
  | .cancelJson _ => some json
  | .cancelQuiet _ => some unit
  | .conv _ => none

theorem slotTy_fixed {n : Net} {s : Slot} {ty : Ty} (h : s.fixedTy = some ty) :
    n.slotTy s = some ty := by
  cases s <;> simp_all [Slot.fixedTy, Net.slotTy]

theorem spawn_connect {n : Net} {k : Kind} {t : Ty} {s : Slot} (hs : s.fixedTy = some (k.output t)) :
    connectTo (spawn n k t).1 (.ok (spawn n k t).2) (k.output t) s
      = .ok { convs := n.convs ++ [(k, t)]
              wires := n.wires ++ [(.ok n.convs.length, s)]
              errs := n.errs } := by
  rw [connectTo_ok (slotTy_fixed hs)]
  rfl

/-- The converters of a connector are complete and were asked for. -/
structure PerOk (n : Net) (k : Kind) (s : Slot) (can : Ty → Prop) (c : Per) : Prop where
  slot : c.slot = s
  conv : ∀ ty i, c.incoming.lookup ty = some i → ConvOk n i k ty s ∧ can ty

theorem PerOk.grow {n n' : Net} {k : Kind} {s : Slot} {can : Ty → Prop} {c : Per}
    (h : PerOk n k s can c) (g : Grew n n') : PerOk n' k s can c :=
  ⟨h.slot, fun ty i hl => ⟨g.conv _ _ _ _ (h.conv ty i hl).1, (h.conv ty i hl).2⟩⟩

theorem PerOk.push {n : Net} {k : Kind} {s : Slot} {can : Ty → Prop} {c : Per} {ty : Ty} {i : Nat}
    (h : PerOk n k s can c) (hc : ConvOk n i k ty s) (hcan : can ty) :
    PerOk n k s can { c with incoming := (ty, i) :: c.incoming } := by
  refine ⟨h.slot, fun ty' j hl => ?_⟩
  simp only [List.lookup_cons] at hl
  by_cases e : ty' = ty
  · subst e
    simp at hl
    subst hl
    exact ⟨hc, hcan⟩
  · have : (ty' == ty) = false := by simpa using e
    rw [this] at hl
    exact h.conv ty' j hl

/-- Where the messages of an output go. -/
inductive Route where
  | drop
  | direct (s : Slot)
  | via (k : Kind) (t : Ty) (s : Slot)

/-- The route has been made for an output of the operation. -/
def Made (n : Net) (o : Nat) : Route → Prop
  | .drop => n.at (.op o) = []
  | .direct s => n.at (.op o) = [(.op o, s)] ∧ s.fixedTy.isSome
  | .via k t s =>
    ∃ i, n.at (.op o) = [(.op o, .conv i)] ∧ ConvOk n i k t s ∧ s.fixedTy = some (k.output t)

/-- The connection of one output. -/
structure Did (n n' : Net) (o : Nat) (r : Route) : Prop where
  grew : Grew n n'
  others : ∀ o', o' ≠ o → n'.at (.op o') = n.at (.op o')
  made : n.at (.op o) = [] → Made n' o r

theorem did_direct (n : Net) (o : Nat) {s : Slot} (hs : s.fixedTy.isSome) :
    Did n (wire n (.op o) s) o (.direct s) := by
  refine ⟨grew_wire n o s, fun o' h => ?_, fun h => ⟨?_, hs⟩⟩
  · rw [at_wire]; simp [Ne.symm h]
  · rw [at_wire]; simp [h]

theorem did_via {n : Net} {o : Nat} {i : Nat} {k : Kind} {t : Ty} {s : Slot}
    (hc : ConvOk n i k t s) (hs : s.fixedTy = some (k.output t)) :
    Did n (wire n (.op o) (.conv i)) o (.via k t s) := by
  refine ⟨grew_wire n o _, fun o' h => ?_, fun h => ⟨i, ?_, (grew_wire n o _).conv _ _ _ _ hc, hs⟩⟩
  · rw [at_wire]; simp [Ne.symm h]
  · rw [at_wire]; simp [h]

theorem did_new {n : Net} (hf : Fresh n) {o : Nat} {k : Kind} {t : Ty} {s : Slot}
    (hs : s.fixedTy = some (k.output t)) :
    Did n (wire (addConv n k t s) (.op o) (.conv n.convs.length)) o (.via k t s) := by
  have h := did_via (o := o) (conv_addConv hf k t s) hs
  refine ⟨(grew_addConv n k t s).trans h.grew, fun o' ho => ?_, fun ha => h.made ?_⟩
  · rw [h.others o' ho, at_addConv]; simp
  · rw [at_addConv]; simpa using ha

/-! ### Each connector -/

theorem trySer_spec {reg : Registry} {n : Net} {c : Per} {s : Slot} {o : Nat} {ty : Ty}
    (hf : Fresh n) (hs : s.fixedTy = some json)
    (hc : PerOk n .ser s (fun t => trySerialize reg t = true) c) :
    if ty = json then
      ∃ n', trySer reg n c (.op o) ty = .ok (some (n', c)) ∧ Did n n' o (.direct s)
        ∧ PerOk n' .ser s (fun t => trySerialize reg t = true) c
    else if trySerialize reg ty then
      ∃ n' c', trySer reg n c (.op o) ty = .ok (some (n', c')) ∧ Did n n' o (.via .ser ty s)
        ∧ PerOk n' .ser s (fun t => trySerialize reg t = true) c'
    else trySer reg n c (.op o) ty = .ok none := by
  by_cases hj : ty = json
  · rw [if_pos hj]
    have hd : Did n (wire n (.op o) s) o (.direct s) := did_direct n o (by simp [hs])
    refine ⟨wire n (.op o) s, ?_, hd, hc.grow hd.grew⟩
    unfold trySer
    rw [if_pos hj, hc.slot, connectTo_ok (slotTy_fixed (by rw [hs, hj]))]
  · rw [if_neg hj]
    cases hl : c.incoming.lookup ty with
    | some i =>
      have ⟨hci, hcan⟩ := hc.conv ty i hl
      rw [if_pos hcan]
      have hd := did_via (o := o) hci (by simpa [Kind.output] using hs)
      refine ⟨wire n (.op o) (.conv i), c, ?_, hd, hc.grow hd.grew⟩
      unfold trySer
      rw [if_neg hj, hl]
      simp only
      rw [connectTo_conv (ty := ty) hci rfl]
    | none =>
      by_cases hr : trySerialize reg ty = true
      · rw [if_pos hr]
        have hs' : s.fixedTy = some (Kind.ser.output ty) := hs
        have hd := did_new hf (o := o) (k := .ser) (t := ty) hs'
        have hnew := hd.grew
        refine ⟨_, { c with incoming := (ty, n.convs.length) :: c.incoming }, ?_, hd,
          (hc.grow hnew).push ((grew_wire _ o _).conv _ _ _ _ (conv_addConv hf .ser ty s)) hr⟩
        unfold trySer
        rw [if_neg hj, hl]
        simp only
        rw [if_pos hr, hc.slot, spawn_connect hs']
        simp only
        have : giveErr { convs := n.convs ++ [(Kind.ser, ty)]
                         wires := n.wires ++ [(.ok n.convs.length, s)]
                         errs := n.errs } (.err (spawn n .ser ty).2) = addConv n .ser ty s := rfl
        rw [this]
        have h2 : (spawn n .ser ty).2 = n.convs.length := rfl
        rw [h2, connectTo_conv (ty := ty) (conv_addConv hf .ser ty s) rfl]
      · rw [if_neg hr]
        unfold trySer
        rw [if_neg hj, hl]
        simp only
        rw [if_neg hr]

theorem tryStr_spec {reg : Registry} {n : Net} {c : Per} {s : Slot} {o : Nat} {ty : Ty}
    (hf : Fresh n) (hs : s.fixedTy = some string)
    (hc : PerOk n .str s (fun t => tryToString reg t = .ok true) c) :
    (ty = string → ∃ n', tryStr reg n c (.op o) ty = .ok (some (n', c)) ∧ Did n n' o (.direct s)
        ∧ PerOk n' .str s (fun t => tryToString reg t = .ok true) c)
    ∧ (ty ≠ string → tryToString reg ty = .ok true →
      ∃ n' c', tryStr reg n c (.op o) ty = .ok (some (n', c')) ∧ Did n n' o (.via .str ty s)
        ∧ PerOk n' .str s (fun t => tryToString reg t = .ok true) c')
    ∧ (ty ≠ string → tryToString reg ty = .ok false → tryStr reg n c (.op o) ty = .ok none)
    ∧ (ty ≠ string → ∀ e, tryToString reg ty = .error e → tryStr reg n c (.op o) ty = .error e) := by
  refine ⟨fun hj => ?_, fun hj hr => ?_, fun hj hr => ?_, fun hj e hr => ?_⟩
  · have hd : Did n (wire n (.op o) s) o (.direct s) := did_direct n o (by simp [hs])
    refine ⟨wire n (.op o) s, ?_, hd, hc.grow hd.grew⟩
    unfold tryStr
    rw [if_pos hj, hc.slot, connectTo_ok (slotTy_fixed (by rw [hs, hj]))]
  · cases hl : c.incoming.lookup ty with
    | some i =>
      have ⟨hci, hcan⟩ := hc.conv ty i hl
      have hd := did_via (o := o) hci (by simpa [Kind.output] using hs)
      refine ⟨wire n (.op o) (.conv i), c, ?_, hd, hc.grow hd.grew⟩
      unfold tryStr
      rw [if_neg hj, hl]
      simp only
      rw [connectTo_conv (ty := ty) hci rfl]
    | none =>
      have hs' : s.fixedTy = some (Kind.str.output ty) := hs
      have hd := did_new hf (o := o) (k := .str) (t := ty) hs'
      have hnew := hd.grew
      refine ⟨_, { c with incoming := (ty, n.convs.length) :: c.incoming }, ?_, hd,
        (hc.grow hnew).push ((grew_wire _ o _).conv _ _ _ _ (conv_addConv hf .str ty s)) hr⟩
      unfold tryStr
      rw [if_neg hj, hl]
      simp only
      rw [hr]
      simp only
      rw [hc.slot, spawn_connect hs']
      simp only
      have : ({ convs := n.convs ++ [(Kind.str, ty)]
                wires := n.wires ++ [(.ok n.convs.length, s)]
                errs := n.errs } : Net) = addConv n .str ty s := by simp [addConv, Kind.fallible]
      have h2 : (spawn n .str ty).2 = n.convs.length := rfl
      rw [this, h2, connectTo_conv (ty := ty) (conv_addConv hf .str ty s) rfl]
  · cases hl : c.incoming.lookup ty with
    | some i =>
      have ⟨_, hcan⟩ := hc.conv ty i hl
      rw [hr] at hcan; cases hcan
    | none =>
      unfold tryStr
      rw [if_neg hj, hl]
      simp only
      rw [hr]
  · cases hl : c.incoming.lookup ty with
    | some i =>
      have ⟨_, hcan⟩ := hc.conv ty i hl
      rw [hr] at hcan; cases hcan
    | none =>
      unfold tryStr
      rw [if_neg hj, hl]
      simp only
      rw [hr]

theorem connectTrigger_spec {reg : Registry} {n : Net} {c : Per} {s : Slot} {o : Nat} {ty : Ty}
    (hf : Fresh n) (hs : s.fixedTy = some unit)
    (hc : PerOk n .trig s (fun t => (reg t).isSome = true) c) (hr : (reg ty).isSome = true) :
    ∃ n' c', connectTrigger reg n c (.op o) ty = .ok (n', c') ∧ Did n n' o (.via .trig ty s)
      ∧ PerOk n' .trig s (fun t => (reg t).isSome = true) c' := by
  cases hl : c.incoming.lookup ty with
  | some i =>
    have ⟨hci, hcan⟩ := hc.conv ty i hl
    have hd := did_via (o := o) hci (by simpa [Kind.output] using hs)
    refine ⟨wire n (.op o) (.conv i), c, ?_, hd, hc.grow hd.grew⟩
    unfold connectTrigger
    rw [hl]
    simp only
    rw [connectTo_conv (ty := ty) hci rfl]
  | none =>
    have hs' : s.fixedTy = some (Kind.trig.output ty) := hs
    have hd := did_new hf (o := o) (k := .trig) (t := ty) hs'
    have hnew := hd.grew
    refine ⟨_, { c with incoming := (ty, n.convs.length) :: c.incoming }, ?_, hd,
      (hc.grow hnew).push ((grew_wire _ o _).conv _ _ _ _ (conv_addConv hf .trig ty s)) hr⟩
    unfold connectTrigger
    rw [hl]
    obtain ⟨r, hr'⟩ := Option.isSome_iff_exists.mp hr
    simp only
    rw [hr']
    simp only
    rw [hc.slot, spawn_connect hs']
    simp only
    have : ({ convs := n.convs ++ [(Kind.trig, ty)]
              wires := n.wires ++ [(.ok n.convs.length, s)]
              errs := n.errs } : Net) = addConv n .trig ty s := by simp [addConv, Kind.fallible]
    have h2 : (spawn n .trig ty).2 = n.convs.length := rfl
    rw [this, h2, connectTo_conv (ty := ty) (conv_addConv hf .trig ty s) rfl]

/-- The deserialiser of a connector, if there is one, is complete. -/
structure DeOk (reg : Registry) (n : Net) (k : Nat) (t : Ty) (c : De) : Prop where
  slot : c.slot = .input k t
  ty : c.ty = t
  can : tryDeserialize reg t = true
  conv : ∀ i, c.input = some i → ConvOk n i .de t (.input k t)

theorem implicitDe_spec {reg : Registry} {n : Net} {c : De} {k : Nat} {t : Ty} {o : Nat} {ty : Ty}
    (hf : Fresh n) (hc : DeOk reg n k t c) :
    (ty = t → ∃ n', implicitDe reg n c (.op o) ty = .ok (n', c)
      ∧ Did n n' o (.direct (.input k t)) ∧ DeOk reg n' k t c)
    ∧ (ty ≠ t → ty = json → ∃ n' c', implicitDe reg n c (.op o) ty = .ok (n', c')
      ∧ Did n n' o (.via .de t (.input k t)) ∧ DeOk reg n' k t c')
    ∧ (ty ≠ t → ty ≠ json → ∃ e, implicitDe reg n c (.op o) ty = .error e) := by
  have hgrow : ∀ {n'}, Grew n n' → DeOk reg n' k t c := fun g =>
    ⟨hc.slot, hc.ty, hc.can, fun i h => g.conv _ _ _ _ (hc.conv i h)⟩
  refine ⟨fun hj => ?_, fun hj hjson => ?_, fun hj hjson => ?_⟩
  · have hd : Did n (wire n (.op o) (.input k t)) o (.direct (.input k t)) := did_direct n o rfl
    refine ⟨_, ?_, hd, hgrow hd.grew⟩
    unfold implicitDe
    rw [hc.ty, if_pos hj, hc.slot, connectTo_ok (by simp [Net.slotTy, hj])]
  · cases hl : c.input with
    | some i =>
      have hci := hc.conv i hl
      have hd := did_via (o := o) hci rfl
      refine ⟨wire n (.op o) (.conv i), c, ?_, hd, hgrow hd.grew⟩
      unfold implicitDe
      rw [hc.ty, if_neg hj, if_pos hjson, hl]
      simp only
      rw [connectTo_conv hci (by simp [Kind.input, hjson])]
    | none =>
      have hd := did_new hf (o := o) (k := .de) (t := t) (s := .input k t) rfl
      refine ⟨_, { c with input := some n.convs.length }, ?_, hd,
        ⟨hc.slot, hc.ty, hc.can, fun i h => ?_⟩⟩
      · unfold implicitDe
        rw [hc.ty, if_neg hj, if_pos hjson, hl]
        simp only
        rw [if_pos hc.can, hc.slot, spawn_connect rfl]
        simp only
        have : giveErr { convs := n.convs ++ [(Kind.de, t)]
                         wires := n.wires ++ [(.ok n.convs.length, .input k t)]
                         errs := n.errs } (.err (spawn n .de t).2)
            = addConv n .de t (.input k t) := rfl
        have h2 : (spawn n .de t).2 = n.convs.length := rfl
        rw [this, h2, connectTo_conv (conv_addConv hf .de t _) (by simp [Kind.input, hjson])]
      · cases h
        exact (grew_wire _ o _).conv _ _ _ _ (conv_addConv hf .de t _)
  · unfold implicitDe
    rw [hc.ty, if_neg hj, if_neg hjson]
    exact ⟨_, rfl⟩

/-! ### Targets -/

/-- A connector is in a state that it can get to. -/
def TargetOk (reg : Registry) (n : Net) (k : Nat) : Decl → Target → Prop
  | .input t, .ser c => t = json ∧ PerOk n .ser (.input k t) (fun t => trySerialize reg t = true) c
  | .input t, .de c => t ≠ json ∧ DeOk reg n k t c
  | .input t, .basic s => t ≠ json ∧ tryDeserialize reg t = false ∧ s = .input k t
  | .cancel, .cancel a b c =>
    PerOk n .str (.cancelStr k) (fun t => tryToString reg t = .ok true) a
      ∧ PerOk n .ser (.cancelJson k) (fun t => trySerialize reg t = true) b
      ∧ PerOk n .trig (.cancelQuiet k) (fun t => (reg t).isSome = true) c
  | .dispose, .dispose => True
  | _, _ => False

theorem TargetOk.grow {reg : Registry} {n n' : Net} {k : Nat} {d : Decl} {t : Target}
    (g : Grew n n') (h : TargetOk reg n k d t) : TargetOk reg n' k d t := by
  cases d <;> cases t <;> simp only [TargetOk] at h ⊢
  · exact ⟨h.1, h.2.grow g⟩
  · exact ⟨h.1, h.2.slot, h.2.ty, h.2.can, fun i e => g.conv _ _ _ _ (h.2.conv i e)⟩
  · exact h
  · exact ⟨h.1.grow g, h.2.1.grow g, h.2.2.grow g⟩

theorem newTarget_ok (reg : Registry) (n : Net) (k : Nat) (d : Decl) :
    TargetOk reg n k d (newTarget reg k d) := by
  have hp : ∀ kd s can, PerOk n kd s can ⟨s, []⟩ := fun _ _ _ => ⟨rfl, fun _ _ h => by cases h⟩
  cases d with
  | input t =>
    simp only [newTarget]
    by_cases hj : t = json
    · rw [if_pos hj]; exact ⟨hj, hp _ _ _⟩
    · rw [if_neg hj]
      by_cases hd : tryDeserialize reg t = true
      · rw [if_pos hd]
        exact ⟨hj, rfl, rfl, hd, fun _ h => by cases h⟩
      · rw [if_neg hd]
        exact ⟨hj, by simpa using hd, rfl⟩
  | cancel => exact ⟨hp _ _ _, hp _ _ _, hp _ _ _⟩
  | dispose => trivial

/-- The route that a connection is to take, if it is possible. -/
def routeOf (reg : Registry) (k : Nat) : Decl → Ty → Option Route
  | .input t, ty =>
    if ty = t then some (.direct (.input k t))
    else if t = json then if trySerialize reg ty then some (.via .ser ty (.input k t)) else none
    else if ty = json ∧ tryDeserialize reg t = true then some (.via .de t (.input k t))
    else none
  | .cancel, ty =>
    if ty = string then some (.direct (.cancelStr k))
    else
      match reg ty with
      | none => none
      | some r =>
        if r.str then some (.via .str ty (.cancelStr k))
        else if ty = json then some (.direct (.cancelJson k))
        else if r.ser then some (.via .ser ty (.cancelJson k))
        else some (.via .trig ty (.cancelQuiet k))
  | .dispose, _ => some .drop

theorem did_drop (n : Net) (o : Nat) : Did n n o .drop := ⟨Grew.refl n, fun _ _ => rfl, fun h => h⟩

theorem connectInto_spec {reg : Registry} {n : Net} {k : Nat} {d : Decl} {t : Target} {o : Nat}
    {ty : Ty} (hf : Fresh n) (ht : TargetOk reg n k d t) :
    match routeOf reg k d ty with
    | none => ∃ e, connectInto reg n t (.op o) ty = .error e
    | some r => ∃ n' t', connectInto reg n t (.op o) ty = .ok (n', t') ∧ Did n n' o r
        ∧ TargetOk reg n' k d t' := by
  cases d with
  | input u =>
    cases t with
    | ser c =>
      obtain ⟨hu, hc⟩ := ht
      subst hu
      have h := trySer_spec (o := o) (ty := ty) hf rfl hc
      by_cases hj : ty = json
      · rw [if_pos hj] at h
        obtain ⟨n', e, hd, hp⟩ := h
        simp only [routeOf, if_pos hj]
        refine ⟨n', .ser c, ?_, hd, rfl, hp⟩
        simp only [connectInto, implicitSer, e]
      · rw [if_neg hj] at h
        simp only [routeOf, if_neg hj, if_true]
        by_cases hr : trySerialize reg ty = true
        · rw [if_pos hr] at h ⊢
          obtain ⟨n', c', e, hd, hp⟩ := h
          refine ⟨n', .ser c', ?_, hd, rfl, hp⟩
          simp only [connectInto, implicitSer, e]
        · rw [if_neg hr] at h ⊢
          simp only [connectInto, implicitSer, h]
          exact ⟨_, rfl⟩
    | de c =>
      obtain ⟨hu, hc⟩ := ht
      have ⟨h1, h2, h3⟩ := implicitDe_spec (o := o) (ty := ty) hf hc
      by_cases hj : ty = u
      · simp only [routeOf, if_pos hj]
        obtain ⟨n', e, hd, hp⟩ := h1 hj
        refine ⟨n', .de c, ?_, hd, hu, hp⟩
        simp only [connectInto, e]
      · simp only [routeOf, if_neg hj, if_neg hu]
        by_cases hjson : ty = json
        · rw [if_pos ⟨hjson, hc.can⟩]
          obtain ⟨n', c', e, hd, hp⟩ := h2 hj hjson
          refine ⟨n', .de c', ?_, hd, hu, hp⟩
          simp only [connectInto, e]
        · rw [if_neg (fun h => hjson h.1)]
          obtain ⟨e, he⟩ := h3 hj hjson
          simp only [connectInto, he]
          exact ⟨_, rfl⟩
    | basic s =>
      obtain ⟨hu, hde, hs⟩ := ht
      subst hs
      by_cases hj : ty = u
      · simp only [routeOf, if_pos hj]
        refine ⟨wire n (.op o) (.input k u), .basic (.input k u), ?_, did_direct n o rfl, hu, hde, rfl⟩
        simp only [connectInto]
        rw [connectTo_ok (by simp [Net.slotTy, hj])]
      · simp only [routeOf, if_neg hj, if_neg hu]
        rw [if_neg (fun h => by rw [hde] at h; cases h.2)]
        have hne : ¬ u = ty := fun h => hj h.symm
        simp only [connectInto, connectTo, Net.slotTy, Option.some.injEq, if_neg hne]
        exact ⟨_, rfl⟩
    | cancel a b c => exact ht.elim
    | dispose => exact ht.elim
  | cancel =>
    cases t with
    | cancel a b c =>
      obtain ⟨ha, hb, hc⟩ := ht
      have ⟨h1, h2, h3, h4⟩ := tryStr_spec (o := o) (ty := ty) hf rfl ha
      by_cases hj : ty = string
      · simp only [routeOf, if_pos hj]
        obtain ⟨n', e, hd, hp⟩ := h1 hj
        refine ⟨n', .cancel a b c, ?_, hd, hp, hb.grow hd.grew, hc.grow hd.grew⟩
        simp only [connectInto, e]
      · simp only [routeOf, if_neg hj]
        cases hr : reg ty with
        | none =>
          simp only
          have := h4 hj (.unregistered ty) (by simp [tryToString, hr])
          simp only [connectInto, this]
          exact ⟨_, rfl⟩
        | some r =>
          simp only
          by_cases hstr : r.str = true
          · rw [if_pos hstr]
            obtain ⟨n', c', e, hd, hp⟩ := h2 hj (by simp [tryToString, hr, hstr])
            refine ⟨n', .cancel c' b c, ?_, hd, hp, hb.grow hd.grew, hc.grow hd.grew⟩
            simp only [connectInto, e]
          · rw [if_neg hstr]
            have e0 := h3 hj (by simp [tryToString, hr, hstr])
            have hs := trySer_spec (o := o) (ty := ty) hf rfl hb
            by_cases hjson : ty = json
            · rw [if_pos hjson] at hs ⊢
              obtain ⟨n', e, hd, hp⟩ := hs
              refine ⟨n', .cancel a b c, ?_, hd, ha.grow hd.grew, hp, hc.grow hd.grew⟩
              simp only [connectInto, e0, e]
            · rw [if_neg hjson] at hs ⊢
              have hts : trySerialize reg ty = r.ser := by simp [trySerialize, hr]
              rw [hts] at hs
              by_cases hser : r.ser = true
              · rw [if_pos hser] at hs ⊢
                obtain ⟨n', c', e, hd, hp⟩ := hs
                refine ⟨n', .cancel a c' c, ?_, hd, ha.grow hd.grew, hp, hc.grow hd.grew⟩
                simp only [connectInto, e0, e]
              · rw [if_neg hser] at hs ⊢
                obtain ⟨n', c', e, hd, hp⟩ := connectTrigger_spec (o := o) (ty := ty) hf rfl hc
                  (by rw [hr]; rfl)
                refine ⟨n', .cancel a b c', ?_, hd, ha.grow hd.grew, hb.grow hd.grew, hp⟩
                simp only [connectInto, e0, hs, e]
    | _ => exact ht.elim
  | dispose =>
    cases t with
    | dispose => exact ⟨n, .dispose, rfl, did_drop n o, trivial⟩
    | _ => exact ht.elim

/-! ### A sequence of connections -/

structure Inv (reg : Registry) (decls : Nat → Decl) (w : W) (done : List Ask) : Prop where
  fresh : Fresh w.net
  targets : ∀ k, TargetOk reg w.net k (decls k) (w.targets k)
  made : ∀ a, a ∈ done → ∃ r, routeOf reg a.target (decls a.target) a.ty = some r
    ∧ Made w.net a.out r
  rest : ∀ o, o ∉ done.map (·.out) → w.net.at (.op o) = []

theorem inv_start (reg : Registry) (decls : Nat → Decl) : Inv reg decls (start reg decls) [] :=
  ⟨⟨fun _ _ => ⟨rfl, rfl⟩, fun _ _ => ⟨rfl, rfl⟩, fun _ => rfl⟩, fun k => newTarget_ok reg _ k _,
    fun _ h => (List.not_mem_nil h).elim, fun _ _ => rfl⟩

theorem Made.keep {n n' : Net} {o o' : Nat} {r r' : Route} (h : Made n o' r')
    (hd : Did n n' o r) (hne : o' ≠ o) : Made n' o' r' := by
  cases r' with
  | drop => show n'.at _ = _; rw [hd.others o' hne]; exact h
  | direct s => exact ⟨by rw [hd.others o' hne]; exact h.1, h.2⟩
  | via k t s =>
    obtain ⟨i, h1, h2, h3⟩ := h
    exact ⟨i, by rw [hd.others o' hne]; exact h1, hd.grew.conv _ _ _ _ h2, h3⟩

theorem step_spec {reg : Registry} {decls : Nat → Decl} {w : W} {done : List Ask} {a : Ask}
    (h : Inv reg decls w done) (hnew : a.out ∉ done.map (·.out)) :
    match routeOf reg a.target (decls a.target) a.ty with
    | none => ∃ e, step reg w a = .error e
    | some _ => ∃ w', step reg w a = .ok w' ∧ Inv reg decls w' (done ++ [a]) := by
  have hs := connectInto_spec (o := a.out) (ty := a.ty) h.fresh (h.targets a.target)
  cases hr : routeOf reg a.target (decls a.target) a.ty with
  | none =>
    rw [hr] at hs
    obtain ⟨e, he⟩ := hs
    exact ⟨e, by unfold step; rw [he]⟩
  | some r =>
    rw [hr] at hs
    obtain ⟨n', t', he, hd, ht⟩ := hs
    refine ⟨⟨n', fun k => if k = a.target then t' else w.targets k⟩, by unfold step; rw [he], ?_⟩
    refine ⟨hd.grew.fresh h.fresh, fun k => ?_, fun b hb => ?_, fun o ho => ?_⟩
    · show TargetOk reg n' k (decls k) (if k = a.target then t' else w.targets k)
      by_cases hk : k = a.target
      · rw [if_pos hk, hk]; exact ht
      · rw [if_neg hk]; exact (h.targets k).grow hd.grew
    · rcases List.mem_append.mp hb with hb | hb
      · obtain ⟨r', h1, h2⟩ := h.made b hb
        refine ⟨r', h1, h2.keep hd ?_⟩
        intro e
        exact hnew (by rw [← e]; exact List.mem_map_of_mem hb)
      · have : b = a := by simpa using hb
        subst this
        exact ⟨r, hr, hd.made (h.rest _ hnew)⟩
    · have ho' : o ∉ done.map (·.out) ∧ o ≠ a.out := by
        simpa [not_or] using ho
      show n'.at _ = _
      rw [hd.others o ho'.2]
      exact h.rest o ho'.1

theorem run_inv {reg : Registry} {decls : Nat → Decl} :
    ∀ (as : List Ask) (w : W) (done : List Ask), Inv reg decls w done →
      ((done ++ as).map (·.out)).Nodup →
      ((∀ a, a ∈ as → (routeOf reg a.target (decls a.target) a.ty).isSome) →
        ∃ w', run reg w as = .ok w')
      ∧ ∀ w', run reg w as = .ok w' → Inv reg decls w' (done ++ as) := by
  intro as
  induction as with
  | nil =>
    intro w done h _
    refine ⟨fun _ => ⟨w, rfl⟩, fun w' e => ?_⟩
    cases e
    simpa using h
  | cons a as ih =>
    intro w done h hnd
    have hnew : a.out ∉ done.map (·.out) := by
      intro hm
      simp only [List.map_append, List.map_cons] at hnd
      exact (List.nodup_append.mp hnd).2.2 _ hm _ (List.mem_cons_self ..) rfl
    have hs := step_spec h hnew
    have hnd' : ((done ++ [a] ++ as).map (·.out)).Nodup := by simpa using hnd
    cases hr : routeOf reg a.target (decls a.target) a.ty with
    | none =>
      rw [hr] at hs
      obtain ⟨e, he⟩ := hs
      refine ⟨fun hall => ?_, fun w' e' => ?_⟩
      · have := hall a (List.mem_cons_self ..)
        rw [hr] at this; cases this
      · simp only [run, he] at e'
        cases e'
    | some r =>
      rw [hr] at hs
      obtain ⟨w1, he, hi⟩ := hs
      have ⟨i1, i2⟩ := ih w1 (done ++ [a]) hi hnd'
      refine ⟨fun hall => ?_, fun w' e' => ?_⟩
      · obtain ⟨w', hw⟩ := i1 fun b hb => hall b (List.mem_cons_of_mem _ hb)
        exact ⟨w', by simp only [run, he]; exact hw⟩
      · simp only [run, he] at e'
        simpa using i2 w' e'

/-! ### What a route does -/

theorem arrive_fixed {V : Type} (S : Sem V) (n : Net) (next next' : Out → V → List (Effect V))
    (v : V) {s : Slot} (hs : s.fixedTy.isSome) : arrive S n next v s = arrive S ⟨[], [], []⟩ next' v s := by
  cases s <;> first | rfl | cases hs

/-- What a terminal slot does with a message. -/
def ends {V : Type} (S : Sem V) (s : Slot) (v : V) : List (Effect V) :=
  arrive S ⟨[], [], []⟩ (fun _ _ => []) v s

def Route.does {V : Type} (S : Sem V) (v : V) : Route → List (Effect V)
  | .drop => []
  | .direct s => ends S s v
  | .via .ser t s =>
    match S.ser t v with
    | .ok j => ends S s j
    | .error e => [.error e]
  | .via .de t s =>
    match S.de t v with
    | .ok j => ends S s j
    | .error e => [.error e]
  | .via .str t s => ends S s (S.str t v)
  | .via .trig _ s => ends S s S.unit

theorem emit_ok {V : Type} (S : Sem V) {n : Net} {i : Nat} {k : Kind} {t : Ty} {s : Slot}
    (h : ConvOk n i k t s) (hs : s.fixedTy.isSome) (d : Nat) (v : V) :
    emit S n (d + 1) (.ok i) v = ends S s v := by
  have h1 := h.wok
  have h2 := h.eok
  unfold Net.at at h1
  unfold Net.eat at h2
  simp only [emit, h1, h2, List.flatMap_cons, List.flatMap_nil, List.map_nil, List.append_nil]
  exact arrive_fixed S n _ (fun _ _ => []) v hs

theorem emit_err {V : Type} (S : Sem V) {n : Net} {i : Nat} {k : Kind} {t : Ty} {s : Slot}
    (h : ConvOk n i k t s) (hk : k.fallible = true) (d : Nat) (v : V) :
    emit S n (d + 1) (.err i) v = [.error v] := by
  have h1 := h.werr
  have h2 := h.eerr
  unfold Net.at at h1
  unfold Net.eat at h2
  simp only [emit, h1, h2, hk, if_true, List.flatMap_nil, List.map_cons, List.map_nil,
    List.nil_append]

theorem emit_route {V : Type} (S : Sem V) {n : Net} (hf : Fresh n) {o : Nat} {r : Route}
    (h : Made n o r) (d : Nat) (v : V) : emit S n (d + 2) (.op o) v = r.does S v := by
  have he := hf.ops o
  unfold Net.eat at he
  cases r with
  | drop =>
    have h1 : n.at (.op o) = [] := h
    unfold Net.at at h1
    simp only [emit, h1, he]
    rfl
  | direct s =>
    have h1 := h.1
    unfold Net.at at h1
    rw [emit, h1, he]
    simp only [List.flatMap_cons, List.flatMap_nil, List.map_nil, List.append_nil]
    exact arrive_fixed S n _ (fun _ _ => []) v h.2
  | via k t s =>
    obtain ⟨i, h1, h2, h3⟩ := h
    unfold Net.at at h1
    rw [emit, h1, he]
    simp only [List.flatMap_cons, List.flatMap_nil, List.map_nil, List.append_nil, arrive, h2.conv]
    have hs : s.fixedTy.isSome := by rw [h3]; rfl
    cases k with
    | ser =>
      simp only [convert, Route.does]
      cases S.ser t v with
      | ok j => exact emit_ok S h2 hs d j
      | error e => exact emit_err S h2 rfl d e
    | de =>
      simp only [convert, Route.does]
      cases S.de t v with
      | ok j => exact emit_ok S h2 hs d j
      | error e => exact emit_err S h2 rfl d e
    | str => exact emit_ok S h2 hs d _
    | trig => exact emit_ok S h2 hs d _

theorem route_effect {V : Type} (S : Sem V) {reg : Registry} {k : Nat} {d : Decl} {ty : Ty}
    {r : Route} (h : routeOf reg k d ty = some r) (v : V) :
    r.does S v = effect S reg k d ty v := by
  cases d with
  | input t =>
    simp only [routeOf] at h
    simp only [effect]
    by_cases h1 : ty = t
    · rw [if_pos h1] at h ⊢
      cases h; rfl
    · rw [if_neg h1] at h ⊢
      by_cases h2 : t = json
      · rw [if_pos h2] at h ⊢
        split at h
        · cases h
          simp only [Route.does, orError]
          cases S.ser ty v <;> rfl
        · cases h
      · rw [if_neg h2] at h ⊢
        split at h
        · cases h
          simp only [Route.does, orError]
          cases S.de t v <;> rfl
        · cases h
  | cancel =>
    simp only [routeOf] at h
    simp only [effect]
    by_cases h1 : ty = string
    · rw [if_pos h1] at h ⊢
      cases h; rfl
    · rw [if_neg h1] at h ⊢
      cases hr : reg ty with
      | none => rw [hr] at h; cases h
      | some x =>
        rw [hr] at h
        simp only at h ⊢
        by_cases h2 : x.str = true
        · rw [if_pos h2] at h ⊢; cases h; rfl
        · rw [if_neg h2] at h ⊢
          by_cases h3 : ty = json
          · rw [if_pos h3] at h ⊢; cases h; rfl
          · rw [if_neg h3] at h ⊢
            by_cases h4 : x.ser = true
            · rw [if_pos h4] at h ⊢
              cases h
              simp only [Route.does, orError]
              cases S.ser ty v <;> rfl
            · rw [if_neg h4] at h ⊢; cases h; rfl
  | dispose => cases h; rfl

theorem allowed_iff (reg : Registry) (k : Nat) (d : Decl) (ty : Ty) :
    (routeOf reg k d ty).isSome ↔ Allowed reg d ty := by
  have hser : ∀ t, trySerialize reg t = true ↔ ∃ r, reg t = some r ∧ r.ser = true := by
    intro t
    unfold trySerialize
    cases reg t <;> simp
  have hde : ∀ t, tryDeserialize reg t = true ↔ ∃ r, reg t = some r ∧ r.de = true := by
    intro t
    unfold tryDeserialize
    cases reg t <;> simp
  cases d with
  | input t =>
    simp only [routeOf, Allowed, ← hser, ← hde]
    by_cases h1 : ty = t
    · simp [h1]
    · rw [if_neg h1]
      by_cases h2 : t = json
      · have h3 : ty ≠ json := fun e => h1 (e.trans h2.symm)
        rw [if_pos h2]
        by_cases h4 : trySerialize reg ty = true <;> simp [h1, h2, h3, h4]
      · rw [if_neg h2]
        by_cases h4 : ty = json ∧ tryDeserialize reg t = true
        · rw [if_pos h4]; simp [h4.1, h4.2]
        · rw [if_neg h4]; simp [h1, h2]; simpa using h4
  | cancel =>
    simp only [routeOf, Allowed]
    by_cases h1 : ty = string
    · simp [h1]
    · rw [if_neg h1]
      cases reg ty with
      | none => simp [h1]
      | some x =>
        simp only [Option.isSome_some, or_true, iff_true]
        split
        · rfl
        · split
          · rfl
          · split <;> rfl
  | dispose => simp [routeOf, Allowed]

end Verif.Convert
