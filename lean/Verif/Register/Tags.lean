import Verif.Register.Lemmas

/-
Helper lemmas: the types that are known, the types that functions were made for, and the other
registers.
-/
set_option linter.unusedSectionVars false
set_option linter.unusedSimpArgs false

namespace Verif.Register

variable {T : Types}

/-! ### The types that are known -/

theorem known_clone (b : Bool) (t : Ty) (s : St) (k : Ty) :
    Known (registerClone b t s) k ↔ k = t ∨ Known s k := by
  simp only [registerClone]
  split <;> exact known_put ..

theorem known_part (b : Bool) (s : St) (p k : Ty) :
    Known (registerPart b s p) k ↔ k = p ∨ Known s k := by
  cases b with
  | false => simp [registerPart, known_clone, registerSer]
  | true =>
    simp only [registerPart, known_clone, registerSer, if_true, known_put]
    rw [← or_assoc, or_self]

/-- The parts of types that are supported as results are known. -/
def PartsKnown (T : Types) (s : St) : Prop :=
  ∀ t, Sup s t .result → ∀ q, q ∈ resultParts T t → Known s q

theorem known_result (hs : PartsKnown T s) (b : Bool) (t k : Ty) :
    Known (registerResult T b t s) k ↔ Known s k ∨ k = t ∨ k ∈ resultParts T t := by
  simp only [registerResult, entry_impl]
  split
  · next h =>
    rw [known_put]
    constructor
    · rintro (h | h)
      · exact .inr (.inl h)
      · exact .inl h
    · rintro (h' | h' | h')
      · exact .inr h'
      · exact .inl h'
      · exact .inr (hs t h k h')
  · simp only [known_part, known_put, resultParts, List.mem_cons, List.not_mem_nil, or_false]
    constructor
    · rintro (h | h | h | h) <;> simp [h]
    · rintro (h | h | h | h) <;> simp [h]

theorem step_known (hs : PartsKnown T s) (p : Prim) (k : Ty) :
    Known (step T s p) k ↔ Known s k ∨ p.Mentions T k := by
  cases p with
  | de t => exact (known_put ..).trans or_comm
  | ser t => exact (known_put ..).trans or_comm
  | clone b t => exact (known_clone ..).trans or_comm
  | once o t =>
    simp only [step, registerOnce]
    split <;> exact (known_put ..).trans or_comm
  | split t => exact (known_put ..).trans or_comm
  | toString t => exact (known_put ..).trans or_comm
  | result b t => exact known_result hs b t k
  | json t => exact (or_false _).symm.to_iff
  | node id a b => exact (or_false _).symm.to_iff

theorem step_partsKnown (hs : PartsKnown T s) (p : Prim) (hp : ∀ t, p ≠ .once .result t) :
    PartsKnown T (step T s p) := by
  intro t h q hq
  refine (step_known hs p q).2 ?_
  rcases step_sound s p t .result h with h | h
  · exact .inl (hs t h q hq)
  · cases p with
    | result b t' =>
      rcases h with ⟨rfl, _⟩ | ⟨_, _, h | h⟩
      · exact .inr (.inr hq)
      · cases h
      · cases h
    | once o t' =>
      obtain ⟨rfl, rfl⟩ := h
      exact absurd rfl (hp t)
    | clone b t' => exact absurd h.2.2 (by simp)
    | json t' => exact h.elim
    | node id a b => exact h.elim
    | de t' => exact absurd h.2 (by simp)
    | ser t' => exact absurd h.2 (by simp)
    | split t' => exact absurd h.2 (by simp)
    | toString t' => exact absurd h.2 (by simp)

theorem steps_known (ps : List Prim) (s : St) (hs : PartsKnown T s) (hn : Plain ps) (k : Ty) :
    Known (steps T ps s) k ↔ Known s k ∨ ∃ p, p ∈ ps ∧ p.Mentions T k := by
  induction ps generalizing s with
  | nil => simp [steps_nil]
  | cons p ps ih =>
    rw [steps_cons, ih _ (step_partsKnown hs p fun t h => hn t (h ▸ List.mem_cons_self))
      (fun t h => hn t (List.mem_cons_of_mem _ h)), step_known hs, ex_cons, or_assoc]

theorem part_mentions (b : Bool) (t k : Ty) :
    (∃ p, p ∈ partPrims b t ∧ p.Mentions T k) ↔ k = t := by
  cases b <;> simp [partPrims, Prim.Mentions]

theorem with_mentions (t k : Ty) (w : With) :
    (∃ p, p ∈ withPrims T t w ∧ p.Mentions T k) ↔ k = t ∨ k ∈ T.partsOf t w := by
  cases w with
  | unzip f =>
    simp only [withPrims, ex_append, ex_flatMap, ex_one, part_mentions]
    simp only [Types.partsOf, Prim.Mentions]
    constructor
    · rintro (⟨a, h, rfl⟩ | h)
      · exact .inr h
      · exact .inl h
    · rintro (h | h)
      · exact .inr h
      · exact .inl ⟨k, h, rfl⟩
  | split f =>
    simp only [withPrims, ex_append, ex_one, part_mentions]
    simp only [Types.partsOf, Prim.Mentions, List.mem_cons, List.not_mem_nil, or_false, or_assoc]
  | result f => simp [withPrims, Types.partsOf, Prim.Mentions, resultParts]
  | _ => simp [withPrims, Types.partsOf, Prim.Mentions]

theorem common_mentions (c : Common) (t k : Ty) :
    (∃ p, p ∈ commonPrims c t ∧ p.Mentions T k) ↔ k = t := by
  obtain ⟨a, b, d⟩ := c
  cases a <;> cases b <;> simp [commonPrims, Prim.Mentions]

theorem message_mentions (c : Common) (t : Ty) (withs : List With) (k : Ty) :
    (∃ p, p ∈ messagePrims T c t withs ∧ p.Mentions T k) ↔
      k = t ∨ k = T.vec t ∨ ∃ w, w ∈ withs ∧ k ∈ T.partsOf t w := by
  simp only [messagePrims, ex_append, ex_flatMap, ex_one, common_mentions, with_mentions]
  simp only [Prim.Mentions]
  constructor
  · rintro ((h | h) | ⟨w, hw, h | h⟩)
    · exact .inl h
    · exact .inr (.inl h)
    · exact .inl h
    · exact .inr (.inr ⟨w, hw, h⟩)
  · rintro (h | h | ⟨w, hw, h⟩)
    · exact .inl (.inl h)
    · exact .inl (.inr h)
    · exact .inr ⟨w, hw, .inr h⟩

theorem nodeWith_mentions (req resp : Ty) (w : NodeWith) (k : Ty) :
    (k = req ∨ k = resp ∨ ∃ p, p ∈ nodeWithPrims T req resp w ∧ p.Mentions T k) ↔
      k = req ∨ k = resp ∨ ((w = .commonRequest ∧ k = T.vec req) ∨
        (w = .commonResponse ∧ k = T.vec resp) ∨
        ∃ v, w.asWith = some v ∧ (k = T.vec resp ∨ k ∈ T.partsOf resp v)) := by
  have key : ∀ v : With, (k = req ∨ k = resp ∨ ∃ p, p ∈ Prim.once .join (T.vec resp) ::
      withPrims T resp v ∧ p.Mentions T k) ↔
      k = req ∨ k = resp ∨ k = T.vec resp ∨ k ∈ T.partsOf resp v := by
    intro v
    simp only [ex_cons, with_mentions]
    simp only [Prim.Mentions]
    constructor
    · rintro (h | h | h | h | h) <;> simp [h]
    · rintro (h | h | h | h) <;> simp [h]
  cases w with
  | commonRequest =>
    simp only [nodeWithPrims, message_mentions]
    simp only [NodeWith.asWith, List.not_mem_nil, reduceCtorEq, false_and, exists_false, or_false,
      true_and, false_or]
    constructor
    · rintro (h | h | h | h) <;> simp [h]
    · rintro (h | h | h) <;> simp [h]
  | commonResponse => simp [nodeWithPrims, message_mentions, NodeWith.asWith]
  | unzip f => simpa [nodeWithPrims, NodeWith.asWith] using key (.unzip f)
  | result f => simpa [nodeWithPrims, NodeWith.asWith] using key (.result f)
  | split f => simpa [nodeWithPrims, NodeWith.asWith] using key (.split f)
  | _ =>
    simp only [nodeWithPrims, NodeWith.asWith, ex_one, reduceCtorEq, false_and, false_or,
      exists_false, or_false]
    simp only [Prim.Mentions]
    constructor
    · rintro (h | h | h) <;> simp [h]
    · rintro (h | h) <;> simp [h]

theorem call_mentions (c : Call) (k : Ty) :
    (∃ p, p ∈ callPrims T c ∧ p.Mentions T k) ↔ c.Mentions T k := by
  cases c with
  | message c t withs => exact message_mentions _ _ _ _
  | node c id req resp withs =>
    simp only [callPrims, ex_append, ex_flatMap, ex_one, common_mentions]
    simp only [Call.Mentions, Prim.Mentions, or_false]
    constructor
    · rintro ((h | h) | ⟨w, hw, h⟩)
      · exact .inl h
      · exact .inr (.inl h)
      · rcases (nodeWith_mentions req resp w k).1 (.inr (.inr h)) with h | h | h
        · exact .inl h
        · exact .inr (.inl h)
        · exact .inr (.inr ⟨w, hw, h⟩)
    · rintro (h | h | ⟨w, hw, h⟩)
      · exact .inl (.inl h)
      · exact .inl (.inr h)
      · rcases (nodeWith_mentions (T := T) req resp w k).2 (.inr (.inr h)) with h | h | h
        · exact .inl (.inl h)
        · exact .inl (.inr h)
        · exact .inr ⟨w, hw, h⟩
  | section_ fields => simp only [callPrims, ex_flatMap, message_mentions, Call.Mentions]

/-! ### The types that functions were made for -/

/-- Everything in the entry for a type was made for that type. -/
def Tagged (s : St) : Prop :=
  ∀ k r, s.messages k = some r → r.tag = k ∧ (∀ op x, r.impl op = some x → x = k) ∧
    (r.schema = true ↔ (r.impl .deserialize).isSome = true ∨ (r.impl .serialize).isSome = true)

theorem tagged_put {s : St} (h : Tagged s) {t : Ty} {r : Reg} (h1 : r.tag = t)
    (h2 : ∀ op x, r.impl op = some x → x = t)
    (h3 : r.schema = true ↔
      (r.impl .deserialize).isSome = true ∨ (r.impl .serialize).isSome = true) :
    Tagged (s.put t r) := by
  intro k r' hk
  simp only [St.put] at hk
  split at hk
  · next e => subst e; cases hk; exact ⟨h1, h2, h3⟩
  · exact h k r' hk

theorem tagged_entry {s : St} (h : Tagged s) {t g : Ty} (hg : g = t ∨ Known s t) :
    (entry s t g).tag = t ∧ (∀ op x, (entry s t g).impl op = some x → x = t) ∧
      ((entry s t g).schema = true ↔ ((entry s t g).impl .deserialize).isSome = true ∨
        ((entry s t g).impl .serialize).isSome = true) := by
  simp only [entry]
  cases e : s.messages t with
  | none =>
    rcases hg with rfl | hg
    · refine ⟨rfl, ?_, ?_⟩
      · intro op x h; simp [Reg.new] at h
      · simp [Reg.new]
    · simp [Known, e] at hg
  | some r => exact h t r e

theorem set_impl (r : Reg) (o : Op) (t : Ty) (op : Op) :
    (r.set o t).impl op = if op = o then some t else r.impl op := rfl

theorem tagged_keep {s : St} (h : Tagged s) {t g : Ty} (hg : g = t ∨ Known s t) :
    Tagged (s.put t (entry s t g)) := by
  obtain ⟨h1, h2, h3⟩ := tagged_entry h hg
  exact tagged_put h h1 h2 h3

theorem tagged_set {s : St} (h : Tagged s) {t g : Ty} (hg : g = t ∨ Known s t) {o : Op}
    (ho : o ≠ .deserialize ∧ o ≠ .serialize) : Tagged (s.put t ((entry s t g).set o t)) := by
  obtain ⟨h1, h2, h3⟩ := tagged_entry h hg
  refine tagged_put h h1 ?_ ?_
  · intro op x hx
    rw [set_impl] at hx
    split at hx
    · cases hx; rfl
    · exact h2 op x hx
  · rw [set_impl, set_impl, if_neg (Ne.symm ho.1), if_neg (Ne.symm ho.2)]
    exact h3

theorem tagged_data {s : St} (h : Tagged s) {t : Ty} {o : Op}
    (ho : o = .deserialize ∨ o = .serialize) :
    Tagged (s.put t { (entry s t t).set o t with schema := true }) := by
  obtain ⟨h1, h2, h3⟩ := tagged_entry h (.inl (rfl : t = t))
  refine tagged_put h h1 ?_ ?_
  · intro op x hx
    have hx : ((entry s t t).set o t).impl op = some x := hx
    rw [set_impl] at hx
    split at hx
    · cases hx; rfl
    · exact h2 op x hx
  · rcases ho with rfl | rfl <;> simp [set_impl]

theorem tagged_clone {s : St} (h : Tagged s) (b : Bool) (t : Ty) :
    Tagged (registerClone b t s) := by
  simp only [registerClone]
  split
  · exact tagged_keep h (.inl rfl)
  · exact tagged_set h (.inl rfl) (by simp)

theorem tagged_part {s : St} (h : Tagged s) (b : Bool) (t : Ty) :
    Tagged (registerPart b s t) := by
  cases b
  · exact tagged_clone h _ _
  · exact tagged_clone (tagged_data h (.inr rfl)) _ _

theorem step_tagged {s : St} (h : Tagged s) (p : Prim) (hk : ∀ b t, p = .result b t → Known s t)
    (ho : ∀ o t, p = .once o t → o ≠ .deserialize ∧ o ≠ .serialize) : Tagged (step T s p) := by
  cases p with
  | de t => exact tagged_data h (.inl rfl)
  | ser t => exact tagged_data h (.inr rfl)
  | clone b t => exact tagged_clone h b t
  | once o t =>
    simp only [step, registerOnce]
    split
    · exact tagged_keep h (.inl rfl)
    · exact tagged_set h (.inl rfl) (ho o t rfl)
  | split t => exact tagged_set h (.inl rfl) (by simp)
  | toString t => exact tagged_set h (.inl rfl) (by simp)
  | result b t =>
    simp only [step, registerResult]
    split
    · exact tagged_keep h (.inr (hk b t rfl))
    · exact tagged_part (tagged_part (tagged_set h (.inr (hk b t rfl)) (by simp)) _ _) _ _
  | json t => exact h
  | node id a b => exact h

theorem put_known (s : St) (t : Ty) (r : Reg) (k : Ty) (h : Known s k) : Known (s.put t r) k :=
  (known_put ..).2 (.inr h)

theorem step_known_mono (s : St) (p : Prim) (k : Ty) (h : Known s k) : Known (step T s p) k := by
  cases p with
  | de t => exact put_known _ _ _ _ h
  | ser t => exact put_known _ _ _ _ h
  | clone b t => exact (known_clone ..).2 (.inr h)
  | once o t =>
    simp only [step, registerOnce]
    split <;> exact put_known _ _ _ _ h
  | split t => exact put_known _ _ _ _ h
  | toString t => exact put_known _ _ _ _ h
  | result b t =>
    simp only [step, registerResult]
    split
    · exact put_known _ _ _ _ h
    · exact (known_part ..).2 (.inr ((known_part ..).2 (.inr (put_known _ _ _ _ h))))
  | json t => exact h
  | node id a b => exact h

theorem steps_known_mono (ps : List Prim) (s : St) (k : Ty) (h : Known s k) :
    Known (steps T ps s) k := by
  induction ps generalizing s with
  | nil => exact h
  | cons p ps ih => exact ih _ (step_known_mono s p k h)

/-- Operations other than serialization and deserialization are registered once. -/
def Once (ps : List Prim) : Prop :=
  ∀ o t, Prim.once o t ∈ ps → o ≠ .deserialize ∧ o ≠ .serialize

theorem steps_tagged (ps : List Prim) (s : St) (h : Tagged s) (ho : Once ps)
    (hk : ∀ b t, Prim.result b t ∈ ps → Known s t) : Tagged (steps T ps s) := by
  induction ps generalizing s with
  | nil => exact h
  | cons p ps ih =>
    refine ih _ (step_tagged h p (fun b t e => hk b t (e ▸ List.mem_cons_self))
      (fun o t e => ho o t (e ▸ List.mem_cons_self)))
      (fun o t e => ho o t (List.mem_cons_of_mem _ e)) ?_
    intro b t e
    exact step_known_mono s p t (hk b t (List.mem_cons_of_mem _ e))

theorem once_only_with (t : Ty) (w : With) : Once (withPrims T t w) := by
  intro o t' h
  cases w <;> simp [withPrims, once_part] at h <;> simp [h]

theorem once_only_message (c : Common) (t : Ty) (withs : List With) :
    Once (messagePrims T c t withs) := by
  intro o t' h
  simp only [messagePrims, List.mem_append, once_common, List.mem_flatMap, false_or,
    List.mem_cons, List.not_mem_nil, or_false, Prim.once.injEq] at h
  rcases h with ⟨rfl, _⟩ | ⟨w, _, h⟩
  · simp
  · exact once_only_with t w o t' h

theorem once_only_nodeWith (req resp : Ty) (w : NodeWith) : Once (nodeWithPrims T req resp w) := by
  intro o t h
  have key : ∀ v : With, Prim.once o t ∈ Prim.once .join (T.vec resp) :: withPrims T resp v →
      o ≠ .deserialize ∧ o ≠ .serialize := by
    intro v hv
    rcases List.mem_cons.1 hv with h | h
    · cases h; simp
    · exact once_only_with resp v o t h
  cases w with
  | commonRequest => exact once_only_message _ _ _ o t h
  | commonResponse => exact once_only_message _ _ _ o t h
  | unzip f => exact key _ h
  | result f => exact key _ h
  | split f => exact key _ h
  | _ => simp [nodeWithPrims] at h <;> simp [h]

theorem common_knows (c : Common) (t : Ty) (s : St) : Known (steps T (commonPrims c t) s) t := by
  have : commonPrims c t = ((if c.de then [.de t] else []) ++ (if c.ser then [.ser t] else [])) ++
      ([.clone c.clone t] ++ (if c.ser && c.de then [.json t] else [])) := by
    simp [commonPrims]
  rw [this, steps_append, steps_append]
  exact steps_known_mono _ _ _ ((known_clone ..).2 (.inl rfl))

theorem message_tagged (c : Common) (t : Ty) (withs : List With) (s : St) (h : Tagged s) :
    Tagged (steps T (messagePrims T c t withs) s) := by
  have ho : Once (messagePrims T c t withs) := once_only_message c t withs
  simp only [messagePrims, List.append_assoc] at ho ⊢
  rw [steps_append]
  refine steps_tagged _ _ (steps_tagged _ _ h (fun o t h => ho o t (List.mem_append_left _ h)) ?_)
    (fun o t h => ho o t (List.mem_append_right _ h)) ?_
  · intro b t' h; exact absurd h (result_common _ _ _ _)
  · intro b t' h
    have : Prim.result b t' ∈ messagePrims T c t withs := by
      simp only [messagePrims, List.append_assoc]
      exact List.mem_append_right _ h
    rw [← ((result_message ..).1 this).1]
    exact common_knows c t s

theorem call_tagged (c : Call) (s : St) (h : Tagged s) : Tagged (call T s c) := by
  cases c with
  | message c t withs => rw [call_steps]; exact message_tagged c t withs s h
  | node c id req resp withs =>
    rw [call_steps]
    simp only [callPrims, List.append_assoc]
    rw [steps_append, steps_append]
    have hc : ∀ t, Once (commonPrims c t) := fun t o t' h => absurd h (once_common _ _ _ _)
    refine steps_tagged _ _ (steps_tagged _ _ (steps_tagged _ _ h (hc _) ?_) (hc _) ?_) ?_ ?_
    · intro b t h; exact absurd h (result_common _ _ _ _)
    · intro b t h; exact absurd h (result_common _ _ _ _)
    · intro o t h
      simp only [List.mem_append, List.mem_flatMap, List.mem_cons, List.not_mem_nil, or_false,
        reduceCtorEq, false_or] at h
      obtain ⟨w, _, h⟩ := h
      exact once_only_nodeWith req resp w o t h
    · intro b t h
      simp only [List.mem_append, List.mem_flatMap, List.mem_cons, List.not_mem_nil, or_false,
        reduceCtorEq, false_or] at h
      obtain ⟨w, _, h⟩ := h
      rw [← ((result_nodeWith ..).1 h).1]
      exact common_knows c resp _
  | section_ fields =>
    simp only [call]
    induction fields generalizing s with
    | nil => exact h
    | cons f fields ih =>
      rw [List.foldl_cons]
      refine ih _ ?_
      rw [message_steps]
      exact message_tagged _ _ _ s h

theorem run_tagged (cs : List Call) (s : St) (h : Tagged s) : Tagged (run T cs s) := by
  induction cs generalizing s with
  | nil => exact h
  | cons c cs ih => exact ih _ (call_tagged c s h)

/-! ### The other registers -/

theorem step_json (s : St) (p : Prim) (k : Ty) :
    (step T s p).jsonBuffer k = true ↔ s.jsonBuffer k = true ∨ p = .json k := by
  have hc : ∀ b t (s : St), (registerClone b t s).jsonBuffer = s.jsonBuffer := by
    intro b t s; simp only [registerClone]; split <;> rfl
  have hp : ∀ b t (s : St), (registerPart b s t).jsonBuffer = s.jsonBuffer := by
    intro b t s
    cases b
    · exact hc ..
    · exact hc ..
  cases p with
  | clone b t => simp [step, hc]
  | once o t =>
    simp only [step, registerOnce]
    split <;> simp [St.put]
  | result b t =>
    simp only [step, registerResult]
    split <;> simp [St.put, hp]
  | json t =>
    simp only [step, Bool.or_eq_true, decide_eq_true_eq, Prim.json.injEq]
    rw [or_comm, eq_comm (a := k)]
  | node id a b => simp [step]
  | _ => simp [step, registerDe, registerSer, registerToString, St.put]

theorem steps_json (ps : List Prim) (s : St) (k : Ty) :
    (steps T ps s).jsonBuffer k = true ↔ s.jsonBuffer k = true ∨ .json k ∈ ps := by
  induction ps generalizing s with
  | nil => simp [steps_nil]
  | cons p ps ih =>
    rw [steps_cons, ih, step_json, List.mem_cons, or_assoc, eq_comm (a := p)]

theorem step_nodes (s : St) (p : Prim) (k : Nat) :
    (step T s p).nodes k = match p with
      | .node id a b => if k = id then some ⟨a, b⟩ else s.nodes k
      | _ => s.nodes k := by
  have hc : ∀ b t (s : St), (registerClone b t s).nodes = s.nodes := by
    intro b t s; simp only [registerClone]; split <;> rfl
  have hp : ∀ b t (s : St), (registerPart b s t).nodes = s.nodes := by
    intro b t s
    cases b
    · exact hc ..
    · exact hc ..
  cases p with
  | clone b t => simp [step, hc]
  | once o t =>
    simp only [step, registerOnce]
    split <;> simp [St.put]
  | result b t =>
    simp only [step, registerResult]
    split <;> simp [St.put, hp]
  | _ => simp [step, registerDe, registerSer, registerToString, St.put]

def NoNode (ps : List Prim) : Prop := ∀ id a b, Prim.node id a b ∉ ps

theorem steps_noNode (ps : List Prim) (s : St) (h : NoNode ps) : (steps T ps s).nodes = s.nodes := by
  induction ps generalizing s with
  | nil => rfl
  | cons p ps ih =>
    rw [steps_cons, ih _ fun id a b e => h id a b (List.mem_cons_of_mem _ e)]
    funext k
    rw [step_nodes]
    cases p with
    | node id a b => exact absurd List.mem_cons_self (h id a b)
    | _ => rfl

theorem node_part (b : Bool) (t : Ty) : NoNode (partPrims b t) := by
  intro id x y h; simp [mem_part] at h

theorem node_with (t : Ty) (w : With) : NoNode (withPrims T t w) := by
  intro id x y h
  cases w <;> simp [withPrims] at h
  · obtain ⟨a, _, h⟩ := h; exact node_part _ _ _ _ _ h
  · rcases h with h | h <;> exact node_part _ _ _ _ _ h

theorem node_common (c : Common) (t : Ty) : NoNode (commonPrims c t) := by
  intro id x y
  obtain ⟨a, b, d⟩ := c
  cases a <;> cases b <;> simp [commonPrims]

theorem node_message (c : Common) (t : Ty) (withs : List With) :
    NoNode (messagePrims T c t withs) := by
  intro id x y h
  simp only [messagePrims, List.mem_append, List.mem_flatMap, List.mem_cons, List.not_mem_nil,
    or_false, reduceCtorEq] at h
  rcases h with h | ⟨w, _, h⟩
  · exact node_common _ _ _ _ _ h
  · exact node_with _ _ _ _ _ h

theorem node_nodeWith (req resp : Ty) (w : NodeWith) : NoNode (nodeWithPrims T req resp w) := by
  intro id x y h
  cases w <;> simp only [nodeWithPrims, List.mem_cons, List.not_mem_nil, or_false,
    reduceCtorEq, false_or] at h
  · exact node_message _ _ _ _ _ _ h
  · exact node_message _ _ _ _ _ _ h
  all_goals exact node_with _ _ _ _ _ h

theorem call_nodes (s : St) (c : Call) (k : Nat) :
    (call T s c).nodes k = match c with
      | .node _ id req resp _ => if k = id then some ⟨req, resp⟩ else s.nodes k
      | _ => s.nodes k := by
  rw [call_steps]
  cases c with
  | message c t withs => rw [callPrims, steps_noNode _ _ (node_message _ _ _)]
  | node c id req resp withs =>
    simp only [callPrims]
    rw [steps_append, steps_noNode (withs.flatMap _), steps_append, steps_cons, steps_nil,
      step_nodes, steps_append, steps_noNode _ _ (node_common _ _),
      steps_noNode _ _ (node_common _ _)]
    intro id a b h
    obtain ⟨w, _, h⟩ := List.mem_flatMap.1 h
    exact node_nodeWith req resp w id a b h
  | section_ fields =>
    rw [callPrims, steps_noNode]
    intro id a b h
    obtain ⟨w, _, h⟩ := List.mem_flatMap.1 h
    exact node_message _ _ _ id a b h

theorem lastNode_cons (id : Nat) (c : Call) (cs : List Call) :
    lastNode id (c :: cs) = (lastNode id cs).or (c.node? id) := by
  simp only [lastNode, List.filterMap_cons]
  cases c.node? id with
  | none => simp
  | some n =>
    cases e : cs.filterMap (Call.node? id) with
    | nil => rfl
    | cons a l =>
      simp only [List.getLast?_cons_cons]
      rw [List.getLast?_eq_some_getLast (List.cons_ne_nil a l)]
      rfl

theorem run_nodes (cs : List Call) (s : St) (k : Nat) :
    (run T cs s).nodes k = (lastNode k cs).or (s.nodes k) := by
  induction cs generalizing s with
  | nil => rfl
  | cons c cs ih =>
    rw [run, List.foldl_cons]
    rw [← run, ih, call_nodes, lastNode_cons, Option.or_assoc]
    cases c with
    | node o id req resp withs =>
      simp only [Call.node?]
      by_cases h : k = id <;> simp [h]
    | message o t withs => simp [Call.node?]
    | section_ fields => simp [Call.node?]

/-- Which types can be cloned from buffers. -/
def CloneSame (s : St) : Prop := ∀ k, s.cloneBuffer k = true ↔ Sup s k .clone

theorem clone_same (b : Bool) (t : Ty) (s : St) (h : CloneSame s) :
    CloneSame (registerClone b t s) := by
  intro k
  rw [sup_clone, ← h k]
  simp only [registerClone, entry_impl]
  split
  · next e =>
    constructor
    · intro x; exact .inl x
    · rintro (x | ⟨rfl, rfl, _⟩)
      · exact x
      · exact (h k).2 (by simpa [Sup] using e)
  · next e =>
    have hb : b = true := by cases b <;> simp_all
    simp [hb, or_comm]

theorem ser_same (t : Ty) (s : St) (h : CloneSame s) : CloneSame (registerSer true t s) := by
  intro k
  rw [sup_ser, ← h k]
  simp [registerSer, St.put]

theorem part_same (b : Bool) (t : Ty) (s : St) (h : CloneSame s) :
    CloneSame (registerPart b s t) := by
  cases b
  · exact clone_same _ _ _ h
  · exact clone_same _ _ _ (ser_same _ _ h)

theorem step_same (s : St) (p : Prim) (hp : ∀ t, p ≠ .once .clone t) (h : CloneSame s) :
    CloneSame (step T s p) := by
  cases p with
  | de t => intro k; rw [step, sup_de, ← h k]; simp [registerDe, St.put]
  | ser t => exact ser_same t s h
  | clone b t => exact clone_same b t s h
  | once o t =>
    have ho : ¬ (Op.clone = o) := fun e => hp t (by rw [e])
    intro k
    rw [step, sup_once, ← h k]
    simp only [registerOnce, ho, and_false, or_false]
    split <;> rfl
  | split t => intro k; rw [step, sup_put_set, ← h k]; simp [St.put]
  | toString t => intro k; rw [step, registerToString, sup_put_set, ← h k]; simp [St.put]
  | result b t =>
    simp only [step, registerResult]
    split
    · intro k; rw [sup_put_entry, ← h k]; rfl
    · refine part_same _ _ _ (part_same _ _ _ ?_)
      intro k; rw [sup_put_set, ← h k]; simp [St.put]
  | json t => exact h
  | node id a b => exact h

theorem steps_same (ps : List Prim) (s : St) (hp : ∀ t, Prim.once .clone t ∉ ps)
    (h : CloneSame s) : CloneSame (steps T ps s) := by
  induction ps generalizing s with
  | nil => exact h
  | cons p ps ih =>
    exact ih _ (fun t e => hp t (List.mem_cons_of_mem _ e))
      (step_same s p (fun t e => hp t (e ▸ List.mem_cons_self)) h)

theorem noClone_with (t t' : Ty) (w : With) : Prim.once .clone t' ∉ withPrims T t w := by
  cases w <;> simp [withPrims, once_part]

theorem noClone_message (c : Common) (t : Ty) (withs : List With) (t' : Ty) :
    Prim.once .clone t' ∉ messagePrims T c t withs := by
  simp [messagePrims, once_common, noClone_with]

theorem noClone_nodeWith (req resp : Ty) (w : NodeWith) (t : Ty) :
    Prim.once .clone t ∉ nodeWithPrims T req resp w := by
  cases w <;> simp [nodeWithPrims, noClone_message, noClone_with]

theorem noClone_call (c : Call) (t : Ty) : Prim.once .clone t ∉ callPrims T c := by
  cases c <;> simp [callPrims, noClone_message, once_common, noClone_nodeWith]

/-! ### The types for JSON buffers -/

theorem json_common (c : Common) (t k : Ty) :
    Prim.json k ∈ commonPrims c t ↔ k = t ∧ c.ser = true ∧ c.de = true := by
  obtain ⟨a, b, d⟩ := c
  cases a <;> cases b <;> simp [commonPrims]

theorem json_part (b : Bool) (t k : Ty) : Prim.json k ∉ partPrims b t := by
  simp [mem_part]

theorem json_with (t k : Ty) (w : With) : Prim.json k ∉ withPrims T t w := by
  cases w <;> simp [withPrims, json_part]

theorem json_message (c : Common) (t : Ty) (withs : List With) (k : Ty) :
    Prim.json k ∈ messagePrims T c t withs ↔ k = t ∧ c.ser = true ∧ c.de = true := by
  simp [messagePrims, json_common, json_with]

theorem json_nodeWith (req resp : Ty) (w : NodeWith) (k : Ty) :
    Prim.json k ∈ nodeWithPrims T req resp w ↔
      (w = .commonRequest ∧ k = req) ∨ (w = .commonResponse ∧ k = resp) := by
  cases w <;> simp [nodeWithPrims, json_message, json_with]

end Verif.Register
