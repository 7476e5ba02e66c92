import Verif.Register.Spec

/-
Helper lemmas: every registration is a list of elementary ones.
-/
set_option linter.unusedSectionVars false
set_option linter.unusedSimpArgs false

namespace Verif.Register

variable {T : Types}

/-! ### Elementary registrations -/

inductive Prim where
  | de (t : Ty)
  | ser (t : Ty)
  | clone (sup : Bool) (t : Ty)
  | once (op : Op) (t : Ty)
  | split (t : Ty)
  | toString (t : Ty)
  | result (sup : Bool) (t : Ty)
  | json (t : Ty)
  | node (id : Nat) (req resp : Ty)

def step (T : Types) (s : St) : Prim → St
  | .de t => registerDe true t s
  | .ser t => registerSer true t s
  | .clone b t => registerClone b t s
  | .once op t => registerOnce op t s
  | .split t => s.put t ((entry s t t).set .split t)
  | .toString t => registerToString t s
  | .result b t => registerResult T b t s
  | .json t => { s with jsonBuffer := fun k => k = t || s.jsonBuffer k }
  | .node id req resp =>
    { s with nodes := fun k => if k = id then some ⟨req, resp⟩ else s.nodes k }

def steps (T : Types) (ps : List Prim) (s : St) : St := ps.foldl (step T) s

theorem steps_nil (s : St) : steps T [] s = s := rfl
theorem steps_cons (p : Prim) (ps : List Prim) (s : St) :
    steps T (p :: ps) s = steps T ps (step T s p) := rfl
theorem steps_append (a b : List Prim) (s : St) :
    steps T (a ++ b) s = steps T b (steps T a s) := by
  simp [steps, List.foldl_append]

theorem foldl_steps {α : Type} (f : St → α → St) (g : α → List Prim)
    (h : ∀ s a, f s a = steps T (g a) s) (l : List α) (s : St) :
    l.foldl f s = steps T (l.flatMap g) s := by
  induction l generalizing s with
  | nil => rfl
  | cons a l ih => rw [List.foldl_cons, ih, List.flatMap_cons, steps_append, h]

def partPrims (sup : Bool) (t : Ty) : List Prim :=
  (if sup then [.ser t] else []) ++ [.clone sup t]

theorem part_steps (sup : Bool) (s : St) (t : Ty) :
    registerPart sup s t = steps T (partPrims sup t) s := by
  cases sup <;> rfl

def withPrims (T : Types) (t : Ty) : With → List Prim
  | .unzip f => (T.elems t).flatMap (partPrims f) ++ [.once .unzip t]
  | .result f => [.result f t]
  | .split f => [.split t] ++ partPrims f (T.item t) ++ partPrims f (T.vec (T.item t))
  | .join => [.once .join t]
  | .access => [.once .access t]
  | .listen => [.once .listen t]
  | .toString => [.toString t]

theorem with_steps (t : Ty) (s : St) (w : With) :
    doWith T t s w = steps T (withPrims T t w) s := by
  cases w with
  | unzip f =>
    simp only [doWith, withPrims, steps_append, registerUnzip]
    rw [foldl_steps (T := T) (registerPart f) (partPrims f) (part_steps f)]
    rfl
  | split f =>
    simp only [doWith, withPrims, steps_append, registerSplit, ← part_steps]
    rfl
  | _ => rfl

def commonPrims (c : Common) (t : Ty) : List Prim :=
  (if c.de then [.de t] else []) ++ (if c.ser then [.ser t] else []) ++ [.clone c.clone t] ++
    (if c.ser && c.de then [.json t] else [])

theorem common_steps (c : Common) (t : Ty) (s : St) :
    registerCommon c t s = steps T (commonPrims c t) s := by
  obtain ⟨a, b, d⟩ := c
  cases a <;> cases b <;> rfl

def messagePrims (T : Types) (c : Common) (t : Ty) (withs : List With) : List Prim :=
  commonPrims c t ++ [.once .join (T.vec t)] ++ withs.flatMap (withPrims T t)

theorem message_steps (c : Common) (t : Ty) (withs : List With) (s : St) :
    doMessage T c t withs s = steps T (messagePrims T c t withs) s := by
  simp only [doMessage, messagePrims, steps_append]
  rw [foldl_steps (T := T) (doWith T t) (withPrims T t) (with_steps t), ← common_steps]
  rfl

def nodeWithPrims (T : Types) (req resp : Ty) : NodeWith → List Prim
  | .commonRequest => messagePrims T ⟨true, true, true⟩ req []
  | .cloneRequest => [.clone true req]
  | .deserializeRequest => [.de req]
  | .commonResponse => messagePrims T ⟨true, true, true⟩ resp []
  | .cloneResponse => [.clone true resp]
  | .serializeResponse => [.ser resp]
  | .unzip f => .once .join (T.vec resp) :: withPrims T resp (.unzip f)
  | .result f => .once .join (T.vec resp) :: withPrims T resp (.result f)
  | .split f => .once .join (T.vec resp) :: withPrims T resp (.split f)
  | .join => [.once .join req]
  | .access => [.once .access req]
  | .listen => [.once .listen req]
  | .requestToString => [.toString req]
  | .responseToString => [.toString resp]

theorem nodeWith_steps (req resp : Ty) (s : St) (w : NodeWith) :
    doNodeWith T req resp s w = steps T (nodeWithPrims T req resp w) s := by
  cases w with
  | commonRequest => exact message_steps _ _ _ _
  | commonResponse => exact message_steps _ _ _ _
  | unzip f => exact with_steps (T := T) resp (newBuilder T resp s) (.unzip f)
  | split f => exact with_steps (T := T) resp (newBuilder T resp s) (.split f)
  | _ => rfl

def callPrims (T : Types) : Call → List Prim
  | .message c t withs => messagePrims T c t withs
  | .node c id req resp withs =>
    commonPrims c req ++ commonPrims c resp ++ [.node id req resp] ++
      withs.flatMap (nodeWithPrims T req resp)
  | .section_ fields => fields.flatMap fun f => messagePrims T f.1 f.2.1 f.2.2

theorem call_steps (s : St) (c : Call) : call T s c = steps T (callPrims T c) s := by
  cases c with
  | message c t withs => exact message_steps _ _ _ _
  | node c id req resp withs =>
    simp only [call, callPrims, steps_append]
    rw [foldl_steps (T := T) (doNodeWith T req resp) (nodeWithPrims T req resp)
      (nodeWith_steps req resp), ← common_steps, ← common_steps]
    rfl
  | section_ fields =>
    exact foldl_steps (T := T) _ (fun f : Common × Ty × List With =>
      messagePrims T f.1 f.2.1 f.2.2) (fun s f => message_steps _ _ _ _) fields s

theorem run_steps (cs : List Call) (s : St) :
    run T cs s = steps T (cs.flatMap (callPrims T)) s :=
  foldl_steps (T := T) _ _ call_steps cs s

/-! ### What an elementary registration asks for -/

def resultParts (T : Types) (t : Ty) : List Ty := [T.ok t, T.err t]

def Prim.Asks (T : Types) (p : Prim) (k : Ty) (op : Op) : Prop :=
  match p with
  | .de t => k = t ∧ op = .deserialize
  | .ser t => k = t ∧ op = .serialize
  | .clone b t => b = true ∧ k = t ∧ op = .clone
  | .once o t => k = t ∧ op = o
  | .split t => k = t ∧ op = .split
  | .toString t => k = t ∧ op = .toString
  | .result b t => (k = t ∧ op = .result) ∨ (b = true ∧ k ∈ resultParts T t ∧ PartOp op)
  | .json _ => False
  | .node _ _ _ => False

def Prim.Mentions (T : Types) (p : Prim) (k : Ty) : Prop :=
  match p with
  | .de t => k = t
  | .ser t => k = t
  | .clone _ t => k = t
  | .once _ t => k = t
  | .split t => k = t
  | .toString t => k = t
  | .result _ t => k = t ∨ k ∈ resultParts T t
  | .json _ => False
  | .node _ _ _ => False

/-- Supported: the operation is there. -/
def Sup (s : St) (k : Ty) (op : Op) : Prop := (get s k op).isSome = true

def Known (s : St) (k : Ty) : Prop := (s.messages k).isSome = true

theorem get_put (s : St) (t : Ty) (r : Reg) (k : Ty) (op : Op) :
    get (s.put t r) k op = if k = t then r.impl op else get s k op := by
  simp only [get, St.put]
  split <;> simp

theorem known_put (s : St) (t : Ty) (r : Reg) (k : Ty) :
    Known (s.put t r) k ↔ k = t ∨ Known s k := by
  simp only [Known, St.put]
  split <;> simp_all

theorem entry_impl (s : St) (t g : Ty) (op : Op) : (entry s t g).impl op = get s t op := by
  simp only [entry, get]
  cases s.messages t <;> rfl

theorem put_entry_get (s : St) (t g : Ty) (k : Ty) (op : Op) :
    get (s.put t (entry s t g)) k op = get s k op := by
  rw [get_put]
  split
  · next h => rw [entry_impl, h]
  · rfl

theorem put_set_get (s : St) (t g : Ty) (o : Op) (k : Ty) (op : Op) :
    get (s.put t ((entry s t g).set o t)) k op =
      if k = t ∧ op = o then some t else get s k op := by
  rw [get_put]
  by_cases hk : k = t
  · by_cases ho : op = o
    · simp [hk, ho, Reg.set]
    · simp [hk, ho, Reg.set, entry_impl]
  · simp [hk]

theorem sup_put_entry (s : St) (t g : Ty) (k : Ty) (op : Op) :
    Sup (s.put t (entry s t g)) k op ↔ Sup s k op := by
  rw [Sup, put_entry_get]; exact Iff.rfl

theorem sup_put_set (s : St) (t g : Ty) (o : Op) (k : Ty) (op : Op) :
    Sup (s.put t ((entry s t g).set o t)) k op ↔ Sup s k op ∨ (k = t ∧ op = o) := by
  rw [Sup, put_set_get]
  by_cases h : k = t ∧ op = o
  · simp [h]
  · simp [h, Sup]

theorem sup_de (t : Ty) (s : St) (k : Ty) (op : Op) :
    Sup (registerDe true t s) k op ↔ Sup s k op ∨ (k = t ∧ op = .deserialize) := by
  have : get (registerDe true t s) k op =
      get (s.put t ((entry s t t).set .deserialize t)) k op := by
    simp only [registerDe, get_put, if_true]
  rw [Sup, this]; exact sup_put_set ..

theorem sup_ser (t : Ty) (s : St) (k : Ty) (op : Op) :
    Sup (registerSer true t s) k op ↔ Sup s k op ∨ (k = t ∧ op = .serialize) := by
  have : get (registerSer true t s) k op =
      get (s.put t ((entry s t t).set .serialize t)) k op := by
    simp only [registerSer, get_put, if_true]
  rw [Sup, this]; exact sup_put_set ..

theorem sup_clone (b : Bool) (t : Ty) (s : St) (k : Ty) (op : Op) :
    Sup (registerClone b t s) k op ↔ Sup s k op ∨ (b = true ∧ k = t ∧ op = .clone) := by
  simp only [registerClone, entry_impl]
  split
  · next h =>
    rw [sup_put_entry]
    constructor
    · exact Or.inl
    · rintro (h' | ⟨rfl, rfl, rfl⟩)
      · exact h'
      · simpa [Sup] using h
  · next h =>
    have hb : b = true := by cases b <;> simp_all
    refine Iff.trans (sup_put_set s t t .clone k op) ?_
    simp [hb]

theorem sup_once (o : Op) (t : Ty) (s : St) (k : Ty) (op : Op) :
    Sup (registerOnce o t s) k op ↔ Sup s k op ∨ (k = t ∧ op = o) := by
  simp only [registerOnce, entry_impl]
  split
  · next h =>
    rw [sup_put_entry]
    constructor
    · exact Or.inl
    · rintro (h' | ⟨rfl, rfl⟩)
      · exact h'
      · exact h
  · exact sup_put_set ..

theorem sup_part (b : Bool) (s : St) (p k : Ty) (op : Op) :
    Sup (registerPart b s p) k op ↔ Sup s k op ∨ (b = true ∧ k = p ∧ PartOp op) := by
  cases b with
  | false => simp [registerPart, sup_clone, registerSer]
  | true =>
    simp only [registerPart, sup_clone, sup_ser, PartOp]
    constructor
    · rintro ((h | ⟨h, h'⟩) | ⟨_, h, h'⟩) <;> simp [*]
    · rintro (h | ⟨_, h, h' | h'⟩) <;> simp [*]

theorem sup_result (b : Bool) (t : Ty) (s : St) (k : Ty) (op : Op) :
    Sup (registerResult T b t s) k op ↔ Sup s k op ∨ (k = t ∧ op = .result) ∨
      (¬ Sup s t .result ∧ b = true ∧ k ∈ resultParts T t ∧ PartOp op) := by
  simp only [registerResult, entry_impl]
  split
  · next h =>
    rw [sup_put_entry]
    constructor
    · exact Or.inl
    · rintro (h' | ⟨rfl, rfl⟩ | ⟨h', _⟩)
      · exact h'
      · exact h
      · exact absurd h h'
  · next h =>
    have h' : ¬ Sup s t .result := h
    simp only [sup_part, sup_put_set, resultParts, List.mem_cons, List.not_mem_nil, or_false]
    constructor
    · rintro (((h | h) | ⟨h1, h2, h3⟩) | ⟨h1, h2, h3⟩)
      · exact .inl h
      · exact .inr (.inl h)
      · exact .inr (.inr ⟨h', h1, .inl h2, h3⟩)
      · exact .inr (.inr ⟨h', h1, .inr h2, h3⟩)
    · rintro (h | h | ⟨_, h1, h2 | h2, h3⟩)
      · exact .inl (.inl (.inl h))
      · exact .inl (.inl (.inr h))
      · exact .inl (.inr ⟨h1, h2, h3⟩)
      · exact .inr ⟨h1, h2, h3⟩

/-- One step adds nothing but what is asked for. -/
theorem step_sound (s : St) (p : Prim) (k : Ty) (op : Op) (h : Sup (step T s p) k op) :
    Sup s k op ∨ p.Asks T k op := by
  cases p with
  | de t => exact (sup_de t s k op).1 h
  | ser t => exact (sup_ser t s k op).1 h
  | clone b t => exact (sup_clone b t s k op).1 h
  | once o t => exact (sup_once o t s k op).1 h
  | split t => exact (sup_put_set s t t .split k op).1 h
  | toString t => exact (sup_put_set s t t .toString k op).1 h
  | result b t =>
    rcases (sup_result b t s k op).1 h with h | h | ⟨_, h⟩
    · exact .inl h
    · exact .inr (.inl h)
    · exact .inr (.inr h)
  | json t => exact .inl h
  | node id a b => exact .inl h

/-- One step takes nothing away. -/
theorem step_mono (s : St) (p : Prim) (k : Ty) (op : Op) (h : Sup s k op) :
    Sup (step T s p) k op := by
  cases p with
  | de t => exact (sup_de t s k op).2 (.inl h)
  | ser t => exact (sup_ser t s k op).2 (.inl h)
  | clone b t => exact (sup_clone b t s k op).2 (.inl h)
  | once o t => exact (sup_once o t s k op).2 (.inl h)
  | split t => exact (sup_put_set s t t .split k op).2 (.inl h)
  | toString t => exact (sup_put_set s t t .toString k op).2 (.inl h)
  | result b t => exact (sup_result b t s k op).2 (.inl h)
  | json t => exact h
  | node id a b => exact h

theorem steps_mono (ps : List Prim) (s : St) (k : Ty) (op : Op) (h : Sup s k op) :
    Sup (steps T ps s) k op := by
  induction ps generalizing s with
  | nil => exact h
  | cons p ps ih => exact ih _ (step_mono s p k op h)

theorem steps_sound (ps : List Prim) (s : St) (k : Ty) (op : Op)
    (h : Sup (steps T ps s) k op) : Sup s k op ∨ ∃ p, p ∈ ps ∧ p.Asks T k op := by
  induction ps generalizing s with
  | nil => exact .inl h
  | cons p ps ih =>
    rcases ih _ h with h | ⟨q, hq, ha⟩
    · rcases step_sound s p k op h with h | h
      · exact .inl h
      · exact .inr ⟨p, List.mem_cons_self, h⟩
    · exact .inr ⟨q, List.mem_cons_of_mem _ hq, ha⟩

/-- What is asked for is there after the step, unless it is one of the parts of a result that was
registered before. -/
theorem step_adds (s : St) (p : Prim) (k : Ty) (op : Op) (h : p.Asks T k op)
    (hr : ∀ t, p = .result true t → Sup s t .result → ∀ q, q ∈ resultParts T t →
      ∀ o, PartOp o → Sup s q o) : Sup (step T s p) k op := by
  cases p with
  | de t => exact (sup_de t s k op).2 (.inr h)
  | ser t => exact (sup_ser t s k op).2 (.inr h)
  | clone b t => exact (sup_clone b t s k op).2 (.inr h)
  | once o t => exact (sup_once o t s k op).2 (.inr h)
  | split t => exact (sup_put_set s t t .split k op).2 (.inr h)
  | toString t => exact (sup_put_set s t t .toString k op).2 (.inr h)
  | result b t =>
    refine (sup_result b t s k op).2 ?_
    rcases h with h | ⟨hb, hk, ho⟩
    · exact .inr (.inl h)
    · by_cases hs : Sup s t .result
      · subst hb; exact .inl (hr t rfl hs k hk op ho)
      · exact .inr (.inr ⟨hs, hb, hk, ho⟩)
  | json t => exact h.elim
  | node id a b => exact h.elim

/-- Operations that are not those of parts are there whatever happened before. -/
theorem step_adds_other (s : St) (p : Prim) (k : Ty) (op : Op) (h : p.Asks T k op)
    (ho : ¬ PartOp op) : Sup (step T s p) k op := by
  by_cases hp : ∃ t, p = .result true t
  · obtain ⟨t, rfl⟩ := hp
    rcases h with h | ⟨_, _, h⟩
    · exact (sup_result true t s k op).2 (.inr (.inl h))
    · exact absurd h ho
  · exact step_adds s p k op h fun t ht => absurd ⟨t, ht⟩ hp

theorem steps_adds_other (ps : List Prim) (s : St) (k : Ty) (op : Op) (ho : ¬ PartOp op)
    (h : ∃ p, p ∈ ps ∧ p.Asks T k op) : Sup (steps T ps s) k op := by
  induction ps generalizing s with
  | nil => obtain ⟨_, h, _⟩ := h; cases h
  | cons p ps ih =>
    obtain ⟨q, hq, ha⟩ := h
    rcases List.mem_cons.1 hq with rfl | hq
    · exact steps_mono ps _ k op (step_adds_other s q k op ha ho)
    · exact ih _ ⟨q, hq, ha⟩

/-- No type is registered as a result both in full and minimally. -/
def NoClash (ps : List Prim) : Prop := ∀ t, ¬ (.result true t ∈ ps ∧ .result false t ∈ ps)

/-- Results are registered in their own way. -/
def Plain (ps : List Prim) : Prop := ∀ t, Prim.once .result t ∉ ps

/-- If a type is supported as a result, and will be registered again in full, then what the
second registration asks for is there. -/
def Ready (T : Types) (s : St) (ps : List Prim) : Prop :=
  ∀ t, Prim.result true t ∈ ps → Sup s t .result →
    ∀ q, q ∈ resultParts T t → ∀ o, PartOp o → Sup s q o

theorem steps_adds (ps : List Prim) (s : St) (k : Ty) (op : Op) (hc : NoClash ps)
    (hn : Plain ps) (hr : Ready T s ps) (h : ∃ p, p ∈ ps ∧ p.Asks T k op) : Sup (steps T ps s) k op := by
  induction ps generalizing s with
  | nil => obtain ⟨_, h, _⟩ := h; cases h
  | cons p ps ih =>
    have hp : ∀ t, p = .result true t → Sup s t .result → ∀ q, q ∈ resultParts T t →
        ∀ o, PartOp o → Sup s q o := by
      intro t ht hs
      exact hr t (ht ▸ List.mem_cons_self) hs
    obtain ⟨q, hq, ha⟩ := h
    rcases List.mem_cons.1 hq with rfl | hq
    · exact steps_mono ps _ k op (step_adds s q k op ha hp)
    · refine ih _ (fun t h => hc t ⟨List.mem_cons_of_mem _ h.1, List.mem_cons_of_mem _ h.2⟩)
        (fun t h => hn t (List.mem_cons_of_mem _ h)) ?_ ⟨q, hq, ha⟩
      intro t ht hs r hr' o ho
      rcases step_sound s p t .result hs with hs | hs
      · exact step_mono s p r o (hr t (List.mem_cons_of_mem _ ht) hs r hr' o ho)
      · cases p with
        | result b t' =>
          rcases hs with ⟨rfl, _⟩ | ⟨_, _, h | h⟩
          · cases b with
            | false =>
              exact absurd ⟨List.mem_cons_of_mem _ ht, List.mem_cons_self⟩ (hc t)
            | true => exact step_adds s _ r o (.inr ⟨rfl, hr', ho⟩) hp
          · cases h
          · cases h
        | once o t' =>
          obtain ⟨rfl, rfl⟩ := hs
          exact absurd List.mem_cons_self (hn t)
        | clone b t' => exact absurd hs.2.2 (by simp)
        | json t' => exact hs.elim
        | node id a b => exact hs.elim
        | de t' => exact absurd hs.2 (by simp)
        | ser t' => exact absurd hs.2 (by simp)
        | split t' => exact absurd hs.2 (by simp)
        | toString t' => exact absurd hs.2 (by simp)

/-! ### The elementary registrations of a call -/

theorem mem_part {b : Bool} {t : Ty} {p : Prim} :
    p ∈ partPrims b t ↔ (b = true ∧ p = .ser t) ∨ p = .clone b t := by
  cases b <;> simp [partPrims]

theorem part_asks (b : Bool) (t k : Ty) (op : Op) :
    (∃ p, p ∈ partPrims b t ∧ p.Asks T k op) ↔ b = true ∧ k = t ∧ PartOp op := by
  simp only [mem_part]
  constructor
  · rintro ⟨p, ⟨rfl, rfl⟩ | rfl, h⟩
    · exact ⟨rfl, h.1, .inl h.2⟩
    · exact ⟨h.1, h.2.1, .inr h.2.2⟩
  · rintro ⟨rfl, rfl, rfl | rfl⟩
    · exact ⟨_, .inl ⟨rfl, rfl⟩, rfl, rfl⟩
    · exact ⟨_, .inr rfl, rfl, rfl, rfl⟩

theorem ex_append {α : Type} (a b : List α) (P : α → Prop) :
    (∃ p, p ∈ a ++ b ∧ P p) ↔ (∃ p, p ∈ a ∧ P p) ∨ ∃ p, p ∈ b ∧ P p := by
  simp only [List.mem_append]
  constructor
  · rintro ⟨p, h | h, hp⟩
    · exact .inl ⟨p, h, hp⟩
    · exact .inr ⟨p, h, hp⟩
  · rintro (⟨p, h, hp⟩ | ⟨p, h, hp⟩)
    · exact ⟨p, .inl h, hp⟩
    · exact ⟨p, .inr h, hp⟩

theorem ex_flatMap {α β : Type} (l : List α) (f : α → List β) (P : β → Prop) :
    (∃ p, p ∈ l.flatMap f ∧ P p) ↔ ∃ a, a ∈ l ∧ ∃ p, p ∈ f a ∧ P p := by
  simp only [List.mem_flatMap]
  constructor
  · rintro ⟨p, ⟨a, ha, hp⟩, h⟩; exact ⟨a, ha, p, hp, h⟩
  · rintro ⟨a, ha, p, hp, h⟩; exact ⟨p, ⟨a, ha, hp⟩, h⟩

theorem ex_one {α : Type} (a : α) (P : α → Prop) : (∃ p, p ∈ [a] ∧ P p) ↔ P a := by simp

theorem ex_nil {α : Type} (P : α → Prop) : (∃ p, p ∈ ([] : List α) ∧ P p) ↔ False := by simp

theorem ex_cons {α : Type} (a : α) (l : List α) (P : α → Prop) :
    (∃ p, p ∈ a :: l ∧ P p) ↔ P a ∨ ∃ p, p ∈ l ∧ P p := by simp

theorem with_asks (t k : Ty) (op : Op) (w : With) :
    (∃ p, p ∈ withPrims T t w ∧ p.Asks T k op) ↔ w.Asks T t k op := by
  cases w with
  | unzip f =>
    simp only [withPrims, ex_append, ex_flatMap, ex_one, part_asks]
    simp only [With.Asks, With.op, With.full, Types.partsOf, Prim.Asks]
    constructor
    · rintro (⟨a, ha, h1, rfl, h3⟩ | h)
      · exact .inr ⟨h1, ha, h3⟩
      · exact .inl h
    · rintro (h | ⟨h1, h2, h3⟩)
      · exact .inr h
      · exact .inl ⟨k, h2, h1, rfl, h3⟩
  | split f =>
    simp only [withPrims, ex_append, ex_one, part_asks]
    simp only [With.Asks, With.op, With.full, Types.partsOf, Prim.Asks, List.mem_cons,
      List.not_mem_nil, or_false]
    constructor
    · rintro ((h | ⟨h1, h2, h3⟩) | ⟨h1, h2, h3⟩)
      · exact .inl h
      · exact .inr ⟨h1, .inl h2, h3⟩
      · exact .inr ⟨h1, .inr h2, h3⟩
    · rintro (h | ⟨h1, h2 | h2, h3⟩)
      · exact .inl (.inl h)
      · exact .inl (.inr ⟨h1, h2, h3⟩)
      · exact .inr ⟨h1, h2, h3⟩
  | result f =>
    simp only [withPrims, ex_one, With.Asks, With.op, With.full, Types.partsOf, Prim.Asks,
      resultParts]
  | _ =>
    simp only [withPrims, ex_one, With.Asks, With.op, With.full, Types.partsOf, Prim.Asks,
      List.not_mem_nil, false_and, and_false, or_false]

theorem common_asks (c : Common) (t k : Ty) (op : Op) :
    (∃ p, p ∈ commonPrims c t ∧ p.Asks T k op) ↔ k = t ∧ c.Asks op := by
  obtain ⟨a, b, d⟩ := c
  cases a <;> cases b <;> cases d <;> cases op <;>
    simp [commonPrims, ex_append, ex_one, Prim.Asks, Common.Asks]

theorem message_asks (c : Common) (t : Ty) (withs : List With) (k : Ty) (op : Op) :
    (∃ p, p ∈ messagePrims T c t withs ∧ p.Asks T k op) ↔ MessageAsks T c t withs k op := by
  simp only [messagePrims, ex_append, ex_flatMap, ex_one, common_asks, with_asks, MessageAsks,
    or_assoc]
  rfl

theorem nodeWith_asks (req resp : Ty) (w : NodeWith) (k : Ty) (op : Op) :
    (∃ p, p ∈ nodeWithPrims T req resp w ∧ p.Asks T k op) ↔ w.Asks T req resp k op := by
  have key : ∀ v : With, (∃ p, p ∈ Prim.once .join (T.vec resp) :: withPrims T resp v ∧
      p.Asks T k op) ↔ MessageAsks T ⟨false, false, false⟩ resp [v] k op := by
    intro v
    simp only [ex_cons, with_asks, MessageAsks, ex_one, ex_nil, or_false]
    constructor
    · rintro (h | h)
      · exact .inr (.inl h)
      · exact .inr (.inr h)
    · rintro (⟨_, h⟩ | h | h)
      · cases op <;> simp [Common.Asks] at h
      · exact .inl h
      · exact .inr h
  cases w with
  | commonRequest => exact message_asks _ _ _ _ _
  | commonResponse => exact message_asks _ _ _ _ _
  | unzip f => exact key _
  | result f => exact key _
  | split f => exact key _
  | _ => simp [nodeWithPrims, NodeWith.Asks, Prim.Asks]

theorem call_asks (c : Call) (k : Ty) (op : Op) :
    (∃ p, p ∈ callPrims T c ∧ p.Asks T k op) ↔ c.Asks T k op := by
  cases c with
  | message c t withs => exact message_asks _ _ _ _ _
  | node c id req resp withs =>
    simp only [callPrims, ex_append, ex_flatMap, ex_one, common_asks, nodeWith_asks]
    simp only [Call.Asks, Prim.Asks, or_false, or_and_right]
  | section_ fields =>
    simp only [callPrims, ex_flatMap, message_asks, Call.Asks]

theorem run_asks (cs : List Call) (k : Ty) (op : Op) :
    (∃ p, p ∈ cs.flatMap (callPrims T) ∧ p.Asks T k op) ↔ ∃ c, c ∈ cs ∧ c.Asks T k op := by
  simp only [ex_flatMap, call_asks]

/-! ### Which results are registered -/

theorem result_part (b b' : Bool) (t t' : Ty) : Prim.result b t ∉ partPrims b' t' := by
  simp [mem_part]

theorem result_with (b : Bool) (t t' : Ty) (w : With) :
    Prim.result b t' ∈ withPrims T t w ↔ t = t' ∧ w = .result b := by
  cases w with
  | unzip f => simp [withPrims, result_part]
  | split f => simp [withPrims, result_part]
  | result f => simp [withPrims]; constructor <;> rintro ⟨rfl, rfl⟩ <;> simp
  | _ => simp [withPrims]

theorem result_common (c : Common) (b : Bool) (t t' : Ty) :
    Prim.result b t ∉ commonPrims c t' := by
  obtain ⟨x, y, z⟩ := c
  cases x <;> cases y <;> simp [commonPrims]

theorem result_message (c : Common) (t : Ty) (withs : List With) (b : Bool) (t' : Ty) :
    Prim.result b t' ∈ messagePrims T c t withs ↔ t = t' ∧ .result b ∈ withs := by
  simp only [messagePrims, List.mem_append, result_common, List.mem_flatMap, result_with, false_or,
    List.mem_cons, List.not_mem_nil, or_false, reduceCtorEq]
  constructor
  · rintro ⟨a, h, rfl, rfl⟩; exact ⟨rfl, h⟩
  · rintro ⟨rfl, h⟩; exact ⟨_, h, rfl, rfl⟩

theorem result_nodeWith (req resp : Ty) (w : NodeWith) (b : Bool) (t : Ty) :
    Prim.result b t ∈ nodeWithPrims T req resp w ↔ resp = t ∧ w = .result b := by
  cases w <;> simp [nodeWithPrims, result_message, result_with]

theorem result_call (c : Call) (b : Bool) (t : Ty) :
    Prim.result b t ∈ callPrims T c ↔ c.Result t b := by
  cases c with
  | message c t withs => exact result_message _ _ _ _ _
  | node c id req resp withs =>
    simp only [callPrims, List.mem_append, result_common, List.mem_flatMap, result_nodeWith,
      false_or, List.mem_cons, List.not_mem_nil, or_false, reduceCtorEq, Call.Result]
    constructor
    · rintro ⟨a, h, rfl, rfl⟩; exact ⟨rfl, h⟩
    · rintro ⟨rfl, h⟩; exact ⟨_, h, rfl, rfl⟩
  | section_ fields => simp only [callPrims, List.mem_flatMap, result_message, Call.Result]

theorem once_part (b : Bool) (t t' : Ty) (o : Op) : Prim.once o t ∉ partPrims b t' := by
  simp [mem_part]

theorem once_with (t t' : Ty) (w : With) : Prim.once .result t' ∉ withPrims T t w := by
  cases w <;> simp [withPrims, once_part]

theorem once_common (c : Common) (o : Op) (t t' : Ty) : Prim.once o t ∉ commonPrims c t' := by
  obtain ⟨x, y, z⟩ := c
  cases x <;> cases y <;> simp [commonPrims]

theorem once_message (c : Common) (t : Ty) (withs : List With) (t' : Ty) :
    Prim.once .result t' ∉ messagePrims T c t withs := by
  simp [messagePrims, once_common, once_with]

theorem once_nodeWith (req resp : Ty) (w : NodeWith) (t : Ty) :
    Prim.once .result t ∉ nodeWithPrims T req resp w := by
  cases w <;> simp [nodeWithPrims, once_message, once_with]

theorem once_call (c : Call) (t : Ty) : Prim.once .result t ∉ callPrims T c := by
  cases c <;> simp [callPrims, once_message, once_common, once_nodeWith]

theorem run_plain (cs : List Call) : Plain (cs.flatMap (callPrims T)) := by
  intro t h
  obtain ⟨c, _, h⟩ := List.mem_flatMap.1 h
  exact once_call c t h

end Verif.Register
