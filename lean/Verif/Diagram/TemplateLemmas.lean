import Verif.Diagram.Spec

/-
Lemmas about the validation of templates and the search for buffers.
-/
namespace Verif.Diagram

variable {ts : List (Name × Template)}

theorem mem_directUses {ops : List (Name × Schema)} {t : Name} :
    t ∈ directUses ops ↔ ∃ id c, (id, Schema.template t c) ∈ ops := by
  induction ops with
  | nil => simp [directUses]
  | cons e rest ih =>
    obtain ⟨id, s⟩ := e
    cases s <;> simp only [directUses, List.mem_cons, ih, Prod.mk.injEq, reduceCtorEq,
      and_false, false_or, Schema.template.injEq]
    case template t' c' =>
      constructor
      · rintro (rfl | ⟨id', c'', h⟩)
        · exact ⟨id, c', .inl ⟨rfl, rfl, rfl⟩⟩
        · exact ⟨id', c'', .inr h⟩
      · rintro ⟨id', c'', (⟨_, rfl, _⟩ | h)⟩
        · exact .inl rfl
        · exact .inr ⟨id', c'', h⟩

theorem usesTemplate_iff {a b : Name} :
    UsesTemplate ts a b ↔ ∃ t, ts.lookup a = some t ∧ b ∈ directUses t.ops := by
  simp only [UsesTemplate, mem_directUses]

theorem Star.head {α : Type} {R : α → α → Prop} {a b c : α} (h : R a b) (g : Star R b c) :
    Star R a c := by
  induction g with
  | refl => exact .tail .refl h
  | tail _ r ih => exact .tail ih r

theorem Star.trans {α : Type} {R : α → α → Prop} {a b c : α} (h : Star R a b)
    (g : Star R b c) : Star R a c := by
  induction g with
  | refl => exact h
  | tail _ r ih => exact .tail ih r

theorem Star.cases_head' {α : Type} {R : α → α → Prop} {a c : α} (h : Star R a c) :
    a = c ∨ ∃ b, R a b ∧ Star R b c := by
  induction h with
  | refl => exact .inl rfl
  | tail _ r ih =>
    rcases ih with rfl | ⟨b, h1, h2⟩
    · exact .inr ⟨_, r, .refl⟩
    · exact .inr ⟨b, h1, h2.tail r⟩

/-- Everything below the template `next` is sound, and does not use a template in `used`. -/
inductive Good (ts : List (Name × Template)) : List Name → Name → Prop where
  | mk {used next t} : ts.lookup next = some t →
    (∀ b, b ∈ directUses t.ops → b ∉ used) →
    (∀ b, b ∈ directUses t.ops → Good ts (b :: used) b) → Good ts used next

theorem pushChildren_ok {used : List Name} {uses : List Name} :
    ∀ {queue queue' : List (List Name × Name)}, pushChildren used uses queue = .ok queue' →
      (∀ b, b ∈ uses → b ∉ used) ∧
      (∀ e, e ∈ queue' ↔ e ∈ queue ∨ ∃ b, b ∈ uses ∧ e = (b :: used, b)) := by
  induction uses with
  | nil =>
    intro queue queue' h
    simp only [pushChildren, Except.ok.injEq] at h
    subst h
    simp
  | cons t rest ih =>
    intro queue queue' h
    simp only [pushChildren] at h
    split at h
    · cases h
    · rename_i ht
      obtain ⟨h1, h2⟩ := ih h
      refine ⟨?_, ?_⟩
      · intro b hb
        rcases List.mem_cons.1 hb with rfl | hb
        · exact ht
        · exact h1 b hb
      · intro e
        rw [h2]
        simp only [List.mem_cons]
        constructor
        · rintro ((rfl | h) | ⟨b, hb, rfl⟩)
          · exact .inr ⟨t, .inl rfl, rfl⟩
          · exact .inl h
          · exact .inr ⟨b, .inr hb, rfl⟩
        · rintro (h | ⟨b, (rfl | hb), rfl⟩)
          · exact .inl (.inr h)
          · exact .inl (.inl rfl)
          · exact .inr ⟨b, hb, rfl⟩

theorem pushChildren_err {used : List Name} {uses : List Name} {e : Err} :
    ∀ {queue : List (List Name × Name)}, pushChildren used uses queue = .error e →
      e = .circularTemplate ∧ ∃ b, b ∈ uses ∧ b ∈ used := by
  induction uses with
  | nil => intro queue h; cases h
  | cons t rest ih =>
    intro queue h
    simp only [pushChildren] at h
    split at h
    · rename_i ht
      cases h
      exact ⟨rfl, t, List.mem_cons_self, ht⟩
    · obtain ⟨h1, b, hb, hu⟩ := ih h
      exact ⟨h1, b, List.mem_cons_of_mem _ hb, hu⟩

/-- When the loop ends without an error, every entry of the queue is sound. -/
theorem checkLoop_ok : ∀ {n : Nat} {queue : List (List Name × Name)},
    checkLoop ts n queue = .ok () → ∀ e, e ∈ queue → Good ts e.1 e.2 := by
  intro n
  induction n with
  | zero => intro queue h; cases h
  | succ n ih =>
    intro queue h e he
    match queue, h, he with
    | (used, next) :: queue, h, he =>
      simp only [checkLoop] at h
      cases hl : ts.lookup next with
      | none => rw [hl] at h; cases h
      | some t =>
        rw [hl] at h
        simp only at h
        cases hp : pushChildren used (directUses t.ops) queue with
        | error e' => rw [hp] at h; cases h
        | ok queue' =>
          rw [hp] at h
          simp only at h
          obtain ⟨h1, h2⟩ := pushChildren_ok hp
          have hih := ih h
          rcases List.mem_cons.1 he with rfl | he
          · refine .mk hl h1 fun b hb => ?_
            exact hih (b :: used, b) ((h2 _).2 (.inr ⟨b, hb, rfl⟩))
          · exact hih e ((h2 _).2 (.inl he))

/-- Below a sound template, every template is sound. -/
theorem Good.star {used : List Name} {a b : Name} (h : Good ts used a) (ha : a ∈ used)
    (g : Star (UsesTemplate ts) a b) :
    ∃ used', Good ts used' b ∧ b ∈ used' ∧ ∀ x, x ∈ used → x ∈ used' := by
  induction g with
  | refl => exact ⟨used, h, ha, fun _ hx => hx⟩
  | tail _ r ih =>
    obtain ⟨u, hu, _, hsub⟩ := ih
    cases hu with
    | mk hl _ hc =>
      obtain ⟨t', hl', hb⟩ := usesTemplate_iff.1 r
      rw [hl] at hl'
      cases hl'
      have h2 := hc _ hb
      exact ⟨_, h2, List.mem_cons_self, fun x hx => List.mem_cons_of_mem _ (hsub x hx)⟩

theorem Good.known {used : List Name} {a : Name} (h : Good ts used a) (ha : a ∈ used) :
    ¬ MeetsUnknown ts a := by
  rintro ⟨b, g, hn⟩
  obtain ⟨_, hb, _, _⟩ := h.star ha g
  cases hb with
  | mk hl _ _ => rw [hn] at hl; cases hl

theorem Good.acyclic {used : List Name} {a : Name} (h : Good ts used a) (ha : a ∈ used) :
    ¬ MeetsCycle ts a := by
  rintro ⟨b, c, g, hs, g'⟩
  obtain ⟨u, hb, hbu, _⟩ := h.star ha g
  -- the last step of the cycle goes back to `b`
  have step : ∀ x, Star (UsesTemplate ts) c x →
      ∃ u', Good ts u' x ∧ b ∈ u' := by
    cases hb with
    | mk hl _ hc =>
      obtain ⟨t', hl', hcc⟩ := usesTemplate_iff.1 hs
      rw [hl] at hl'
      cases hl'
      have h2 := hc _ hcc
      intro x hx
      obtain ⟨u', h3, _, h4⟩ := h2.star List.mem_cons_self hx
      exact ⟨u', h3, h4 _ (List.mem_cons_of_mem _ hbu)⟩
  have no : ∀ x y, (∃ u', Good ts u' x ∧ b ∈ u') → UsesTemplate ts x y → y ≠ b := by
    rintro x y ⟨u', hx, hbu'⟩ hxy rfl
    cases hx with
    | mk hl hc _ =>
      obtain ⟨t', hl', hy⟩ := usesTemplate_iff.1 hxy
      rw [hl] at hl'
      cases hl'
      exact hc _ hy hbu'
  cases g' with
  | refl =>
    exact no b b ⟨u, hb, hbu⟩ hs rfl
  | tail g'' r => exact no _ _ (step _ g'') r rfl

/-- The entries of the queue: paths from the start. -/
def PathTo (ts : List (Name × Template)) (start : Name) (e : List Name × Name) : Prop :=
  Star (UsesTemplate ts) start e.2 ∧ ∀ x, x ∈ e.1 →
    Star (UsesTemplate ts) start x ∧ Star (UsesTemplate ts) x e.2

/-- An error of the loop tells the truth. -/
theorem checkLoop_err {start : Name} {e : Err} : ∀ {n : Nat} {queue : List (List Name × Name)},
    checkLoop ts n queue = .error e → (∀ q, q ∈ queue → PathTo ts start q) →
    e = .fuel ∨ (∃ b, e = .unknownTemplate b ∧ Star (UsesTemplate ts) start b ∧
      ts.lookup b = none) ∨ (e = .circularTemplate ∧ MeetsCycle ts start) := by
  intro n
  induction n with
  | zero => intro queue h _; cases h; exact .inl rfl
  | succ n ih =>
    intro queue h hq
    match queue, h, hq with
    | [], h, _ => cases h
    | (used, next) :: queue, h, hq =>
      obtain ⟨hs, hu⟩ := hq _ List.mem_cons_self
      simp only [checkLoop] at h
      cases hl : ts.lookup next with
      | none =>
        rw [hl] at h
        cases h
        exact .inr (.inl ⟨next, rfl, hs, hl⟩)
      | some t =>
        rw [hl] at h
        simp only at h
        cases hp : pushChildren used (directUses t.ops) queue with
        | error e' =>
          rw [hp] at h
          cases h
          obtain ⟨rfl, b, hb, hbu⟩ := pushChildren_err hp
          refine .inr (.inr ⟨rfl, next, b, hs, usesTemplate_iff.2 ⟨t, hl, hb⟩, (hu b hbu).2⟩)
        | ok queue' =>
          rw [hp] at h
          simp only at h
          obtain ⟨_, h2⟩ := pushChildren_ok hp
          refine ih h ?_
          intro q hqq
          rcases (h2 q).1 hqq with hqq | ⟨b, hb, rfl⟩
          · exact hq q (List.mem_cons_of_mem _ hqq)
          · have hub : UsesTemplate ts next b := usesTemplate_iff.2 ⟨t, hl, hb⟩
            refine ⟨hs.tail hub, ?_⟩
            intro x hx
            rcases List.mem_cons.1 hx with rfl | hx
            · exact ⟨hs.tail hub, .refl⟩
            · exact ⟨(hu x hx).1, (hu x hx).2.tail hub⟩

/-! ### The loop ends -/

/-- The number of templates that are not in `used`. -/
def unused (ts : List (Name × Template)) (used : List Name) : Nat :=
  (ts.filter fun e => e.1 ∉ used).length

/-- A bound for the rounds spent on one entry of the queue. -/
def weight (ts : List (Name × Template)) (e : List Name × Name) : Nat :=
  if (ts.lookup e.2).isSome then rounds (maxUses ts) (unused ts e.1) else 1

def weights (ts : List (Name × Template)) : List (List Name × Name) → Nat
  | [] => 0
  | e :: rest => weight ts e + weights ts rest

theorem rounds_pos (b k : Nat) : 1 ≤ rounds b k := by
  cases k <;> simp [rounds] <;> omega

theorem rounds_mono (b k : Nat) : rounds b k ≤ rounds b (k + 1) := by
  induction k with
  | zero =>
    simp only [rounds]
    have : b * 1 ≤ b * (1 + b) := Nat.mul_le_mul_left _ (by omega)
    omega
  | succ k ih =>
    have h := Nat.mul_le_mul_left b ih
    show 1 + b * rounds b k ≤ 1 + b * rounds b (k + 1)
    omega

theorem rounds_le {b j k : Nat} (h : j ≤ k) : rounds b j ≤ rounds b k := by
  induction h with
  | refl => exact Nat.le_refl _
  | step _ ih => exact Nat.le_trans ih (rounds_mono _ _)

theorem weight_pos (e : List Name × Name) : 1 ≤ weight ts e := by
  unfold weight
  split
  · exact rounds_pos _ _
  · exact Nat.le_refl _

theorem uses_le_max {n : Name} {t : Template} (h : ts.lookup n = some t) :
    (directUses t.ops).length ≤ maxUses ts := by
  induction ts with
  | nil => cases h
  | cons e rest ih =>
    obtain ⟨k, t'⟩ := e
    rw [List.lookup_cons] at h
    simp only [maxUses]
    split at h
    · cases h; omega
    · have := ih h; omega

theorem mem_of_lookup {α β : Type} [BEq α] [LawfulBEq α] {l : List (α × β)} {k : α} {v : β}
    (h : l.lookup k = some v) : (k, v) ∈ l := by
  induction l with
  | nil => cases h
  | cons e rest ih =>
    obtain ⟨k', v'⟩ := e
    rw [List.lookup_cons] at h
    split at h
    · rename_i heq
      have hk : k = k' := by simpa using heq
      cases h
      subst hk
      exact List.mem_cons_self
    · exact List.mem_cons_of_mem _ (ih h)

theorem length_filter_le' {α : Type} (p q : α → Bool) (hpq : ∀ x, q x = true → p x = true) :
    ∀ (l : List α), (l.filter q).length ≤ (l.filter p).length
  | [] => Nat.le_refl _
  | a :: rest => by
    have ih := length_filter_le' p q hpq rest
    rw [List.filter_cons, List.filter_cons]
    split
    · rename_i hq
      rw [if_pos (hpq a hq)]
      simpa using ih
    · split
      · exact Nat.le_trans ih (Nat.le_succ _)
      · exact ih

theorem length_filter_lt {α : Type} (p q : α → Bool) (hpq : ∀ x, q x = true → p x = true) :
    ∀ (l : List α), (∃ x, x ∈ l ∧ p x = true ∧ q x = false) →
      (l.filter q).length < (l.filter p).length
  | [], h => by obtain ⟨x, hx, _⟩ := h; cases hx
  | a :: rest, ⟨x, hx, hp, hq⟩ => by
    have hle := length_filter_le' p q hpq rest
    rw [List.filter_cons, List.filter_cons]
    rcases List.mem_cons.1 hx with rfl | hx
    · rw [if_pos hp, if_neg (by simp [hq]), List.length_cons]
      omega
    · have ih := length_filter_lt p q hpq rest ⟨x, hx, hp, hq⟩
      split
      · rename_i hqa
        rw [if_pos (hpq a hqa), List.length_cons, List.length_cons]
        omega
      · split
        · rw [List.length_cons]; omega
        · exact ih

/-- A new known template makes the number of unused ones smaller. -/
theorem unused_lt {used : List Name} {b : Name} (hb : b ∉ used)
    (hk : (ts.lookup b).isSome) : unused ts (b :: used) < unused ts used := by
  obtain ⟨t, ht⟩ := Option.isSome_iff_exists.1 hk
  refine length_filter_lt _ _ ?_ ts ⟨(b, t), mem_of_lookup ht, by simpa using hb, by simp⟩
  intro x hx
  simp only [List.mem_cons, not_or, decide_eq_true_eq] at hx ⊢
  exact hx.2

theorem pushChildren_weights {used : List Name} {w : Nat}
    {uses : List Name} (hw : ∀ b, b ∈ uses → b ∉ used → weight ts (b :: used, b) ≤ w) :
    ∀ {queue queue' : List (List Name × Name)}, pushChildren used uses queue = .ok queue' →
      weights ts queue' ≤ weights ts queue + uses.length * w := by
  induction uses with
  | nil =>
    intro queue queue' h
    cases h
    simp
  | cons t rest ih =>
    intro queue queue' h
    simp only [pushChildren] at h
    split at h
    · cases h
    · rename_i ht
      have h1 := ih (fun b hb hu => hw b (List.mem_cons_of_mem _ hb) hu) h
      have h2 := hw t List.mem_cons_self ht
      simp only [weights, List.length_cons, Nat.succ_mul] at h1 ⊢
      omega

/-- With enough rounds, the loop ends. -/
theorem checkLoop_ends : ∀ {n : Nat} {queue : List (List Name × Name)},
    weights ts queue < n → checkLoop ts n queue ≠ .error .fuel := by
  intro n
  induction n with
  | zero => intro queue h; omega
  | succ n ih =>
    intro queue h
    match queue, h with
    | [], _ => simp [checkLoop]
    | (used, next) :: queue, h =>
      simp only [checkLoop]
      cases hl : ts.lookup next with
      | none => simp
      | some t =>
        simp only
        cases hp : pushChildren used (directUses t.ops) queue with
        | error e =>
          obtain ⟨rfl, _⟩ := pushChildren_err hp
          simp
        | ok queue' =>
          simp only
          apply ih
          have hmax := uses_le_max hl
          simp only [weights] at h
          have hwt : weight ts (used, next) = rounds (maxUses ts) (unused ts used) := by
            simp [weight, hl]
          rw [hwt] at h
          cases hk : unused ts used with
          | zero =>
            have hp' := pushChildren_weights (ts := ts) (w := 1) (fun b _ hbu => by
              unfold weight
              split
              · rename_i hs
                have := unused_lt hbu hs
                omega
              · exact Nat.le_refl _) hp
            rw [hk] at h
            simp only [rounds] at h
            omega
          | succ k =>
            have hp' := pushChildren_weights (ts := ts) (w := rounds (maxUses ts) k)
              (fun b _ hbu => by
                unfold weight
                split
                · rename_i hs
                  have := unused_lt hbu hs
                  exact rounds_le (by simp only; omega)
                · exact rounds_pos _ _) hp
            rw [hk] at h
            simp only [rounds] at h
            have := Nat.mul_le_mul_right (rounds (maxUses ts) k) hmax
            omega

theorem checkTemplate_ends (start : Name) : checkTemplate ts start ≠ .error .fuel := by
  apply checkLoop_ends
  simp only [weights, weight]
  split
  · have : unused ts [start] ≤ ts.length := List.length_filter_le _ _
    have := rounds_le (b := maxUses ts) this
    omega
  · have := rounds_pos (maxUses ts) ts.length
    omega

/-! ### Buffers -/

theorem getBufferLoop_ok {bufs : List (Ref × BufRef)} {t : Ty} :
    ∀ {n : Nat} {visited : List Ref} {r : Ref}, getBufferLoop bufs n visited r = .ok t →
      ∃ r', Star (RefersTo bufs) r r' ∧ bufs.lookup r' = some (.value t) := by
  intro n
  induction n with
  | zero => intro _ _ h; cases h
  | succ n ih =>
    intro visited r h
    simp only [getBufferLoop] at h
    split at h
    · cases h
    · cases hl : bufs.lookup r with
      | none => rw [hl] at h; cases h
      | some b =>
        rw [hl] at h
        cases b with
        | value t' =>
          cases h
          exact ⟨r, .refl, hl⟩
        | ref r1 =>
          obtain ⟨r', h1, h2⟩ := ih h
          exact ⟨r', .head hl h1, h2⟩

theorem getBufferLoop_missing {bufs : List (Ref × BufRef)} :
    ∀ {n : Nat} {visited : List Ref} {r : Ref},
      getBufferLoop bufs n visited r = .error .missing →
      ∃ r', Star (RefersTo bufs) r r' ∧ bufs.lookup r' = none := by
  intro n
  induction n with
  | zero => intro _ _ h; cases h
  | succ n ih =>
    intro visited r h
    simp only [getBufferLoop] at h
    split at h
    · cases h
    · cases hl : bufs.lookup r with
      | none => exact ⟨r, .refl, hl⟩
      | some b =>
        rw [hl] at h
        cases b with
        | value t' => cases h
        | ref r1 =>
          obtain ⟨r', h1, h2⟩ := ih h
          exact ⟨r', .head hl h1, h2⟩

theorem getBufferLoop_circular {bufs : List (Ref × BufRef)} :
    ∀ {n : Nat} {visited : List Ref} {r : Ref},
      getBufferLoop bufs n visited r = .error .circular →
      (∀ x, x ∈ visited → ∃ y, RefersTo bufs x y ∧ Star (RefersTo bufs) y r) →
      ∃ r' r'', Star (RefersTo bufs) r r' ∧ RefersTo bufs r' r'' ∧
        Star (RefersTo bufs) r'' r' := by
  intro n
  induction n with
  | zero => intro _ _ h; cases h
  | succ n ih =>
    intro visited r h hv
    simp only [getBufferLoop] at h
    split at h
    · rename_i hr
      obtain ⟨y, h1, h2⟩ := hv r hr
      exact ⟨r, y, .refl, h1, h2⟩
    · cases hl : bufs.lookup r with
      | none => rw [hl] at h; cases h
      | some b =>
        rw [hl] at h
        cases b with
        | value t' => cases h
        | ref r1 =>
          obtain ⟨r', r'', h1, h2, h3⟩ := ih h (fun x hx => by
            rcases List.mem_cons.1 hx with rfl | hx
            · exact ⟨r1, hl, .refl⟩
            · obtain ⟨y, h1, h2⟩ := hv x hx
              exact ⟨y, h1, h2.tail hl⟩)
          exact ⟨r', r'', .head hl h1, h2, h3⟩

theorem getBufferLoop_ends {bufs : List (Ref × BufRef)} :
    ∀ {n : Nat} {visited : List Ref} {r : Ref},
      (bufs.filter fun e => e.1 ∉ visited).length + 1 < n →
      getBufferLoop bufs n visited r ≠ .error .fuel := by
  intro n
  induction n with
  | zero => intro _ _ h; omega
  | succ n ih =>
    intro visited r h
    simp only [getBufferLoop]
    split
    · simp
    · rename_i hr
      cases hl : bufs.lookup r with
      | none => simp
      | some b =>
        cases b with
        | value t' => simp
        | ref r1 =>
          apply ih
          have := length_filter_lt (fun e : Ref × BufRef => decide (e.1 ∉ visited))
            (fun e => decide (e.1 ∉ r :: visited)) (fun x hx => by
              simp only [List.mem_cons, not_or, decide_eq_true_eq] at hx ⊢
              exact hx.2) bufs ⟨(r, .ref r1), mem_of_lookup hl, by simpa using hr, by simp⟩
          omega

theorem getBuffer_ends {bufs : List (Ref × BufRef)} {r : Ref} :
    getBuffer bufs r ≠ .error .fuel := by
  apply getBufferLoop_ends
  have : (bufs.filter fun e => e.1 ∉ ([] : List Ref)).length ≤ bufs.length :=
    List.length_filter_le _ _
  omega

/-- The references of a buffer go one way. -/
theorem RefersTo.det {bufs : List (Ref × BufRef)} {a b c : Ref} (h : RefersTo bufs a b)
    (g : RefersTo bufs a c) : b = c := by
  unfold RefersTo at h g
  rw [h] at g
  cases g
  rfl

theorem Star.meet {α : Type} {R : α → α → Prop} (det : ∀ {a b c}, R a b → R a c → b = c)
    {a b c : α} (h : Star R a b) (g : Star R a c) : Star R b c ∨ Star R c b := by
  induction h with
  | refl => exact .inl g
  | tail _ r ih =>
    rcases ih with ih | ih
    · rcases ih.cases_head' with rfl | ⟨d, h1, h2⟩
      · exact .inr (.tail .refl r)
      · cases det r h1
        exact .inl h2
    · exact .inr (ih.tail r)

theorem RefersTo.meet {bufs : List (Ref × BufRef)} {a b c : Ref}
    (h : Star (RefersTo bufs) a b) (g : Star (RefersTo bufs) a c) :
    Star (RefersTo bufs) b c ∨ Star (RefersTo bufs) c b :=
  Star.meet (fun h g => h.det g) h g

/-! ### Positions -/

theorem lookup_of_nodup {α β : Type} [BEq α] [LawfulBEq α] {l : List (α × β)} {k : α}
    {v w : β} (h : (l.map (·.1)).Nodup) (hv : (k, v) ∈ l) (hw : (k, w) ∈ l) : v = w := by
  induction l with
  | nil => cases hv
  | cons e rest ih =>
    simp only [List.map_cons, List.nodup_cons] at h
    have no : ∀ x, (e.1, x) ∉ rest := fun x hx => h.1 (List.mem_map.2 ⟨(e.1, x), hx, rfl⟩)
    rcases List.mem_cons.1 hv with rfl | hv'
    · rcases List.mem_cons.1 hw with hw' | hw'
      · cases hw'; rfl
      · exact absurd hw' (no w)
    · rcases List.mem_cons.1 hw with rfl | hw'
      · exact absurd hv' (no v)
      · exact ih h.2 hv' hw'

/-- The contents of an operation are determined by its name and what encloses it. -/
theorem At.det {ts : List (Name × Template)} {ops : List (Name × Schema)}
    (hops : Distinct ops) (hts : ∀ n t, ts.lookup n = some t → Distinct t.ops)
    {ns : List Name} {id : Name} {s : Schema} (h : At ts ops ns id s) :
    (∀ s', At ts ops ns id s' → s = s') ∧
    ∀ start next streams inner, s = .scope start next streams inner → Distinct inner := by
  induction h with
  | root hm =>
    refine ⟨fun s' h' => ?_, ?_⟩
    · generalize hns : ([] : List Name) = ns at h'
      cases h' with
      | root hm' =>
        cases hops with
        | mk hn _ => exact lookup_of_nodup hn hm hm'
      | inTemplate => simp at hns
      | inScope => simp at hns
    · rintro start next streams inner rfl
      cases hops with
      | mk _ hc => exact hc _ _ _ _ _ hm
  | @inTemplate ns sec name c t id s hp hl hm ih =>
    refine ⟨fun s' h' => ?_, ?_⟩
    · generalize hns : ns ++ [sec] = ns1 at h'
      cases h' with
      | root => simp at hns
      | inTemplate hp' hl' hm' =>
        obtain ⟨rfl, hs⟩ := List.append_inj' hns rfl
        cases hs
        cases ih.1 _ hp'
        rw [hl] at hl'
        cases hl'
        cases hts _ _ hl with
        | mk hn _ => exact lookup_of_nodup hn hm hm'
      | inScope hp' hm' =>
        obtain ⟨rfl, hs⟩ := List.append_inj' hns rfl
        cases hs
        cases ih.1 _ hp'
    · rintro start next streams inner rfl
      cases hts _ _ hl with
      | mk _ hc => exact hc _ _ _ _ _ hm
  | @inScope ns sec start next streams inner id s hp hm ih =>
    refine ⟨fun s' h' => ?_, ?_⟩
    · generalize hns : ns ++ [sec] = ns1 at h'
      cases h' with
      | root => simp at hns
      | inTemplate hp' hl' hm' =>
        obtain ⟨rfl, hs⟩ := List.append_inj' hns rfl
        cases hs
        cases ih.1 _ hp'
      | inScope hp' hm' =>
        obtain ⟨rfl, hs⟩ := List.append_inj' hns rfl
        cases hs
        cases ih.1 _ hp'
        cases ih.2 _ _ _ _ rfl with
        | mk hn _ => exact lookup_of_nodup hn hm hm'
    · rintro start' next' streams' inner' rfl
      cases ih.2 _ _ _ _ rfl with
      | mk _ hc => exact hc _ _ _ _ _ hm

end Verif.Diagram
