import Verif.Values.Reach

/-
A workflow without loops comes to rest: every event that changes something takes away some work
and adds work only further down the workflow.
-/
namespace Verif.Values

open Flow (Wired)
open Buffer (Retention)

variable {α : Type}

/-! ### An order without endless descents -/

/-- The first number that differs is smaller. -/
def Lex : List Nat → List Nat → Prop
  | a :: as, b :: bs => (a < b ∧ as.length = bs.length) ∨ (a = b ∧ Lex as bs)
  | _, _ => False

theorem Lex.length {as bs : List Nat} (h : Lex as bs) : as.length = bs.length := by
  induction as generalizing bs with
  | nil => exact absurd h (by simp [Lex])
  | cons a as ih =>
    cases bs with
    | nil => exact absurd h (by simp [Lex])
    | cons b bs =>
      rcases h with ⟨_, h⟩ | ⟨_, h⟩
      · simp [h]
      · simp [ih h]

theorem lex_acc (n : Nat) : ∀ l : List Nat, l.length = n → Acc Lex l := by
  induction n with
  | zero =>
    intro l hl
    have : l = [] := List.length_eq_zero_iff.1 hl
    subst this
    exact ⟨_, fun y hy => by cases y <;> exact absurd hy (by simp [Lex])⟩
  | succ n ih =>
    have key : ∀ b, ∀ bs : List Nat, bs.length = n → Acc Lex (b :: bs) := by
      intro b
      induction b using Nat.strongRecOn with
      | _ b ihb =>
        intro bs hbs
        have hacc := ih bs hbs
        induction hacc with
        | intro bs _ ihbs =>
          refine ⟨_, fun y hy => ?_⟩
          cases y with
          | nil => exact absurd hy (by simp [Lex])
          | cons a as =>
            rcases hy with ⟨h1, h2⟩ | ⟨rfl, h2⟩
            · exact ihb a h1 as (by omega)
            · exact ihbs as h2 (by rw [h2.length]; exact hbs)
    intro l hl
    cases l with
    | nil => simp at hl
    | cons b bs => exact key b bs (by simpa using hl)

theorem lex_map (F G : Nat → Nat) (l1 : List Nat) (r : Nat) (l2 : List Nat)
    (h1 : ∀ a, a ∈ l1 → F a ≤ G a) (h2 : F r < G r) :
    Lex ((l1 ++ r :: l2).map F) ((l1 ++ r :: l2).map G) := by
  induction l1 with
  | nil => exact Or.inl ⟨h2, by simp⟩
  | cons a l1 ih =>
    have ha := h1 a List.mem_cons_self
    by_cases he : F a = G a
    · exact Or.inr ⟨he, ih (fun b hb => h1 b (List.mem_cons_of_mem _ hb))⟩
    · exact Or.inl ⟨by omega, by simp⟩

theorem sum_le {β : Type} (f g : β → Nat) (K : List β) (h : ∀ k, k ∈ K → f k ≤ g k) :
    (K.map f).sum ≤ (K.map g).sum := by
  induction K with
  | nil => simp
  | cons k K ih =>
    have h1 := h k List.mem_cons_self
    have h2 := ih (fun k' hk' => h k' (List.mem_cons_of_mem _ hk'))
    simp only [List.map_cons, List.sum_cons]
    omega

theorem sum_lt {β : Type} (f g : β → Nat) (K : List β) (h : ∀ k, k ∈ K → f k ≤ g k) {k : β}
    (hk : k ∈ K) (hlt : f k < g k) : (K.map f).sum < (K.map g).sum := by
  induction K with
  | nil => simp at hk
  | cons a K ih =>
    have h1 := h a List.mem_cons_self
    have h2 := sum_le f g K (fun k' hk' => h k' (List.mem_cons_of_mem _ hk'))
    simp only [List.map_cons, List.sum_cons]
    rcases List.mem_cons.1 hk with rfl | hk
    · omega
    · have := ih (fun k' hk' => h k' (List.mem_cons_of_mem _ hk')) hk
      omega

/-! ### The work that is left -/

/-- Where work can be: the checks of the scope, the messages of an operation, its tasks. -/
abbrev Place := Option (Nat × Bool)

/-- How much work is there. -/
def left (s : State α) : Place → Nat
  | none => s.checks
  | some (n, true) => (s.pending n).length + s.wakes n
  | some (n, false) => load s n

/-- How far down the workflow a place is. -/
def level (depth : Nat → Nat) (top : Nat) : Place → Nat
  | none => 2 * top + 2
  | some (n, true) => 2 * depth n
  | some (n, false) => 2 * depth n + 1

def places (w : Work α) : List Place :=
  none :: w.ops.flatMap fun e => [some (e.1, true), some (e.1, false)]

theorem mem_places {w : Work α} {n : Nat} {k : Kind α} (h : w.ops.lookup n = some k) (b : Bool) :
    some (n, b) ∈ places w := by
  refine List.mem_cons_of_mem _ (List.mem_flatMap.2 ⟨_, Flow.mem_of_lookup h, ?_⟩)
  cases b <;> simp

/-- The work at each level. -/
def levels (w : Work α) (depth : Nat → Nat) (top : Nat) (s : State α) : List Nat :=
  (List.range (2 * top + 3)).map fun r =>
    (((places w).filter fun p => level depth top p = r).map (left s)).sum

/-- Some work is taken away, and work is added only further down. -/
def Down (w : Work α) (depth : Nat → Nat) (top : Nat) (s' s : State α) : Prop :=
  ∃ p, p ∈ places w ∧ level depth top p < 2 * top + 3 ∧ left s' p < left s p ∧
    ∀ q, left s q < left s' q → level depth top p < level depth top q

theorem Down.ne {w : Work α} {depth : Nat → Nat} {top : Nat} {s' s : State α}
    (h : Down w depth top s' s) : s' ≠ s := by
  rintro rfl
  obtain ⟨p, _, _, h, _⟩ := h
  omega

theorem Down.lex {w : Work α} {depth : Nat → Nat} {top : Nat} {s' s : State α}
    (h : Down w depth top s' s) : Lex (levels w depth top s') (levels w depth top s) := by
  obtain ⟨p, hp, htop, hlt, hle⟩ := h
  obtain ⟨l1, l2, hl⟩ := List.append_of_mem (List.mem_range.2 htop)
  have hl1 : ∀ a, a ∈ l1 → a < level depth top p := by
    intro a ha
    obtain ⟨i, hi, rfl⟩ := List.mem_iff_getElem.1 ha
    have h1 : (List.range (2 * top + 3))[i]? = some l1[i] := by
      rw [hl, List.getElem?_append_left hi]
      exact List.getElem?_eq_getElem hi
    have h2 : (List.range (2 * top + 3))[l1.length]? = some (level depth top p) := by
      rw [hl, List.getElem?_append_right (Nat.le_refl _)]
      simp
    rw [List.getElem?_range (by
      have := (List.getElem?_eq_some_iff.1 h1).1
      simpa using this)] at h1
    rw [List.getElem?_range (by
      have := (List.getElem?_eq_some_iff.1 h2).1
      simpa using this)] at h2
    simp only [Option.some.injEq] at h1 h2
    omega
  unfold levels
  rw [hl]
  refine lex_map _ _ l1 _ l2 ?_ ?_
  · intro a ha
    refine sum_le _ _ _ fun q hq => ?_
    have hq' := (List.mem_filter.1 hq).2
    simp only [decide_eq_true_eq] at hq'
    rcases Nat.lt_or_ge (left s q) (left s' q) with hlt' | h'
    · have := hle q hlt'
      have := hl1 a ha
      omega
    · exact h'
  · refine sum_lt _ _ _ (fun q hq => ?_) (k := p) (List.mem_filter.2 ⟨hp, by simp⟩) hlt
    have hq' := (List.mem_filter.1 hq).2
    simp only [decide_eq_true_eq] at hq'
    rcases Nat.lt_or_ge (left s q) (left s' q) with hlt' | h'
    · have := hle q hlt'
      omega
    · exact h'

/-! ### What one event does -/

/-- A numbering of the operations. -/
structure Numbered (w : Work α) (depth : Nat → Nat) (top : Nat) : Prop where
  targets : ∀ n k m, w.ops.lookup n = some k → m ∈ k.shape.targets → depth n < depth m
  joins : ∀ j bs t pack b, w.ops.lookup j = some (.join bs t pack) → b ∈ bs → depth b.1 < depth j
  bound : ∀ n k, w.ops.lookup n = some k → depth n ≤ top

theorem Layered.numbered {w : Work α} (h : Layered w) : ∃ depth top, Numbered w depth top := by
  obtain ⟨depth, h1, h2⟩ := h.order
  have : ∀ l : List (Nat × Kind α), ∃ top, ∀ e, e ∈ l → depth e.1 ≤ top := by
    intro l
    induction l with
    | nil => exact ⟨0, by simp⟩
    | cons a l ih =>
      obtain ⟨top, ht⟩ := ih
      refine ⟨max top (depth a.1), fun e he => ?_⟩
      rcases List.mem_cons.1 he with rfl | he
      · exact Nat.le_max_right _ _
      · exact Nat.le_trans (ht e he) (Nat.le_max_left _ _)
  obtain ⟨top, ht⟩ := this w.ops
  exact ⟨depth, top, h1, h2, fun n k hk => ht _ (Flow.mem_of_lookup hk)⟩

section
variable {w : Work α} {depth : Nat → Nat} {top : Nat}

/-- After messages were sent, there is more work only at their targets and for the scope. -/
theorem Passed.more {s s' : State α} {ps : List (Nat × α)} (h : Passed w s s' ps) (q : Place)
    (hq : left s q < left s' q) : q = none ∨ ∃ m u, q = some (m, true) ∧ (m, u) ∈ ps := by
  match q, hq with
  | none, _ => exact Or.inl rfl
  | some (m, true), hq =>
    obtain ⟨l, hl, hm⟩ := h.pending m
    simp only [left, hl, h.wakes, List.length_append] at hq
    cases l with
    | nil => simp at hq
    | cons u l => exact Or.inr ⟨m, u, rfl, hm u List.mem_cons_self⟩
  | some (m, false), hq =>
    simp only [left, load, h.tasks] at hq
    omega

theorem foldl_bump (l : List Nat) (f : Nat → Nat) (m : Nat) (hm : m ∉ l) :
    l.foldl Flow.bump f m = f m := by
  induction l generalizing f with
  | nil => rfl
  | cons a l ih =>
    rw [List.foldl_cons, ih _ (fun h => hm (List.mem_cons_of_mem _ h))]
    have : m ≠ a := fun h => hm (h ▸ List.mem_cons_self)
    simp [Flow.bump, this]

theorem listener_join {b j : Nat} (hw : Wired w.net) (h : j ∈ Flow.listeners w.net b) :
    ∃ bs t pack, w.ops.lookup j = some (.join bs t pack) ∧ ∃ c, c ∈ bs ∧ c.1 = b := by
  obtain ⟨⟨j', k'⟩, he, rfl⟩ := List.mem_map.1 h
  obtain ⟨he, hh⟩ := List.mem_filter.1 he
  obtain ⟨k, hk, rfl⟩ := mem_net he
  have hk := Wired.lookup hw hk
  cases k with
  | join bs t pack =>
    simp only [Kind.shape, Flow.Kind.hears, List.any_eq_true, decide_eq_true_eq] at hh
    exact ⟨bs, t, pack, hk, hh⟩
  | _ => simp [Kind.shape, Flow.Kind.hears] at hh

theorem down_exec (hw : Wired w.net) (hn : Numbered w depth top) {s : State α}
    (ha : s.status = .active) {n : Nat} {k : Kind α} {v : α} {vs : List α}
    (hk : w.ops.lookup n = some k) (hj : ∀ bs t pack, k ≠ .join bs t pack)
    (hp : s.pending n = v :: vs) : Down w depth top (step w s (.exec n)) s := by
  rw [step_exec ha hk hj hp]
  have hb := hn.bound n k hk
  have low : ∀ q, left { s with pending := put s.pending n vs } q ≤ left s q := by
    intro q
    match q with
    | none => exact Nat.le_refl _
    | some (m, false) => exact Nat.le_refl _
    | some (m, true) =>
      simp only [left]
      unfold put
      split
      · rename_i h
        rw [h, hp]
        simp only [List.length_cons]
        omega
      · exact Nat.le_refl _
  have less : left { s with pending := put s.pending n vs } (some (n, true)) <
      left s (some (n, true)) := by
    simp only [left, put_self, hp, List.length_cons]
    omega
  have finish : ∀ s', (∀ q, left { s with pending := put s.pending n vs } q < left s' q →
      2 * depth n < level depth top q) → Down w depth top s' s := by
    intro s' h
    refine ⟨some (n, true), mem_places hk true, by simp only [level]; omega, ?_, ?_⟩
    · rcases Nat.lt_or_ge (left { s with pending := put s.pending n vs } (some (n, true)))
        (left s' (some (n, true))) with h' | h'
      · have := h _ h'
        simp only [level] at this
        omega
      · omega
    · intro q hq
      exact h q (Nat.lt_of_le_of_lt (low q) hq)
  have passes : k.passes = true → Down w depth top
      (execute w { s with pending := put s.pending n vs } n v k) s := by
    intro hps
    obtain ⟨ps, hpd, hiff⟩ := execute_passed hw { s with pending := put s.pending n vs } v hk hps
    refine finish _ fun q hq => ?_
    rcases hpd.more q hq with rfl | ⟨m, u, rfl, hm⟩
    · simp only [level]; omega
    · have := hn.targets n k m hk (sends_target ((hiff m u).1 hm))
      simp only [level]
      omega
  cases k with
  | node async f t ss items =>
    cases async with
    | false => exact passes rfl
    | true =>
      refine finish _ fun q hq => ?_
      match q, hq with
      | none, _ => simp only [level]; omega
      | some (m, true), hq => exact absurd hq (Nat.lt_irrefl _)
      | some (m, false), hq =>
        simp only [execute, left, load] at hq
        unfold put at hq
        split at hq
        · rename_i h
          subst h
          simp only [level]
          omega
        · exact absurd hq (Nat.lt_irrefl _)
  | buffer r =>
    refine finish _ fun q hq => ?_
    match q, hq with
    | none, _ => simp only [level]; omega
    | some (m, false), hq => exact absurd hq (Nat.lt_irrefl _)
    | some (m, true), hq =>
      by_cases hm : m ∈ Flow.listeners w.net n
      · obtain ⟨bs, t, pack, hl, c, hc, rfl⟩ := listener_join hw hm
        have := hn.joins m bs t pack c hl hc
        simp only [level]
        omega
      · simp only [execute, notify, left, foldl_bump _ _ _ hm] at hq
        exact absurd hq (Nat.lt_irrefl _)
  | join bs t pack => exact absurd rfl (hj bs t pack)
  | cancel => exact finish _ fun q hq => absurd hq (by cases q with
      | none => exact Nat.lt_irrefl _
      | some p => obtain ⟨m, b⟩ := p; cases b <;> exact Nat.lt_irrefl _)
  | terminate => exact finish _ fun q hq => absurd hq (by cases q with
      | none => exact Nat.lt_irrefl _
      | some p => obtain ⟨m, b⟩ := p; cases b <;> exact Nat.lt_irrefl _)
  | _ => exact passes rfl

theorem down_fire (hw : Wired w.net) (hn : Numbered w depth top) {s : State α}
    (ha : s.status = .active) {n : Nat} {bs : List (Nat × Bool)} {t : Nat} {pack : List α → α}
    (hk : w.ops.lookup n = some (.join bs t pack)) (hwk : s.wakes n ≠ 0) :
    Down w depth top (step w s (.exec n)) s := by
  have hst : step w s (.exec n) = fire w { s with wakes := Flow.drop s.wakes n } bs t pack := by
    unfold step
    rw [if_neg (show ¬ s.status ≠ .active from fun h' => h' ha)]
    simp only [hk]
    rw [if_neg hwk]
  rw [hst]
  have hb := hn.bound n _ hk
  have low : ∀ q, left { s with wakes := Flow.drop s.wakes n } q ≤ left s q := by
    intro q
    match q with
    | none => exact Nat.le_refl _
    | some (m, false) => exact Nat.le_refl _
    | some (m, true) =>
      simp only [left, Flow.drop]
      split <;> omega
  have less : left { s with wakes := Flow.drop s.wakes n } (some (n, true)) <
      left s (some (n, true)) := by
    simp only [left, Flow.drop, if_true]
    omega
  have finish : ∀ s', (∀ q, left { s with wakes := Flow.drop s.wakes n } q < left s' q →
      2 * depth n < level depth top q) → Down w depth top s' s := by
    intro s' h
    refine ⟨some (n, true), mem_places hk true, by simp only [level]; omega, ?_, ?_⟩
    · rcases Nat.lt_or_ge (left { s with wakes := Flow.drop s.wakes n } (some (n, true)))
        (left s' (some (n, true))) with h' | h'
      · have := h _ h'
        simp only [level] at this
        omega
      · omega
    · intro q hq
      exact h q (Nat.lt_of_le_of_lt (low q) hq)
  refine finish _ fun q hq => ?_
  unfold fire at hq
  split at hq
  · rename_i hr
    obtain ⟨⟨vs, hd⟩, hf⟩ := fetch_some s.held bs (Wired.distinct hw hk) (by
      intro b hb he
      unfold ready at hr
      rw [Bool.and_eq_true, List.all_eq_true] at hr
      have := hr.2 b hb
      simp [he] at this)
    rw [show fetch ({ s with wakes := Flow.drop s.wakes n } : State α).held bs = some (vs, hd)
      from hf] at hq
    simp only at hq
    have htt : t ∈ (Kind.join bs t pack).shape.targets := by simp [Kind.shape, Flow.Kind.targets]
    have hp := give_passed (w := w) ({ s with wakes := Flow.drop s.wakes n, held := hd } : State α)
      (p := (t, pack vs)) (Wired.exists hw hk htt)
    rcases hp.more q (by
      refine Nat.lt_of_le_of_lt (Nat.le_of_eq ?_) hq
      match q with
      | none => rfl
      | some (m, false) => rfl
      | some (m, true) => rfl) with rfl | ⟨m, u, rfl, hm⟩
    · simp only [level]; omega
    · simp only [List.mem_singleton, Prod.mk.injEq] at hm
      obtain ⟨rfl, _⟩ := hm
      have := hn.targets n _ m hk htt
      simp only [level]
      omega
  · exact absurd hq (Nat.lt_irrefl _)

/-- Work is taken from the tasks of a node. -/
theorem down_tasks (hn : Numbered w depth top) {s s' s0 : State α} {n : Nat} {k : Kind α}
    (hk : w.ops.lookup n = some k) (hless : load s0 n < load s n)
    (hsame : ∀ m, m ≠ n → load s0 m = load s m) (hp : s0.pending = s.pending)
    (hwk : s0.wakes = s.wakes) {ps : List (Nat × α)} (h : Passed w s0 s' ps)
    (hps : ∀ m u, (m, u) ∈ ps → m ∈ k.shape.targets) : Down w depth top s' s := by
  have hb := hn.bound n k hk
  have low : ∀ q, q ≠ none → left s0 q ≤ left s q := by
    intro q
    match q with
    | none => exact fun h => absurd rfl h
    | some (m, true) => simp [left, hp, hwk]
    | some (m, false) =>
      intro _
      simp only [left]
      by_cases hm : m = n
      · subst hm; omega
      · exact Nat.le_of_eq (hsame m hm)
  refine ⟨some (n, false), mem_places hk false, by simp only [level]; omega, ?_, ?_⟩
  · simp only [left]
    have : load s' n = load s0 n := by unfold load; rw [h.tasks]
    omega
  · intro q hq
    by_cases hqn : q = none
    · subst hqn; simp only [level]; omega
    · rcases h.more q (Nat.lt_of_le_of_lt (low q hqn) hq) with rfl | ⟨m, u, rfl, hm⟩
      · exact absurd rfl hqn
      · have := hn.targets n k m hk (hps m u hm)
        simp only [level]
        omega

theorem load_put {s : State α} {n : Nat} {js : List (Job α)} (m : Nat) (h : m ≠ n) :
    load { s with tasks := put s.tasks n js } m = load s m := by
  simp [load, put, h]

theorem load_erase {s : State α} {n j : Nat} {job : Job α} (hj : (s.tasks n)[j]? = some job) :
    load { s with tasks := put s.tasks n ((s.tasks n).eraseIdx j) } n < load s n := by
  simp only [load, put_self]
  have := sum_erase Job.size (s.tasks n) j job hj
  have : 0 < job.size := by unfold Job.size; omega
  omega

theorem down_item (hw : Wired w.net) (hn : Numbered w depth top) {s : State α}
    (ha : s.status = .active) {n j i : Nat} {f : α → α} {t : Nat} {ss : List Nat}
    {items : α → List (List α)} (hk : w.ops.lookup n = some (.node true f t ss items))
    {job : Job α} (hj : (s.tasks n)[j]? = some job) {m : Nat} (hi : ss[i]? = some m) {u : α}
    {us : List α} (hl : job.left[i]? = some (u :: us)) :
    Down w depth top (step w s (.item n j i)) s := by
  have hitem : step w s (.item n j i) = give w { s with
      tasks := put s.tasks n ((s.tasks n).set j ⟨job.left.set i us, job.response⟩) } (m, u) := by
    unfold step
    rw [if_neg (show ¬ s.status ≠ .active from fun h' => h' ha)]
    simp only [hk, hj, hi, hl]
  have hmt : m ∈ (Kind.node true f t ss items).shape.targets :=
    List.mem_cons_of_mem _ (List.mem_of_getElem? hi)
  rw [hitem]
  refine down_tasks hn hk (s0 := { s with
      tasks := put s.tasks n ((s.tasks n).set j ⟨job.left.set i us, job.response⟩) }) ?_
    (fun m' hm' => load_put m' hm') rfl rfl (give_passed _ (Wired.exists hw hk hmt)) ?_
  · simp only [load, put_self]
    have h5 := sum_set Job.size (s.tasks n) j job ⟨job.left.set i us, job.response⟩ hj
    have h6 := sum_set List.length job.left i (u :: us) us hl
    have h7 : Job.size ⟨job.left.set i us, job.response⟩ < job.size := by
      unfold Job.size
      simp only [List.length_cons] at h6
      simp only
      omega
    omega
  · intro m' u' h
    simp only [List.mem_singleton, Prod.mk.injEq] at h
    rw [h.1]
    exact hmt

theorem down_finish (hw : Wired w.net) (hn : Numbered w depth top) {s : State α}
    (ha : s.status = .active) {n j : Nat} {f : α → α} {t : Nat} {ss : List Nat}
    {items : α → List (List α)} (hk : w.ops.lookup n = some (.node true f t ss items))
    {job : Job α} (hj : (s.tasks n)[j]? = some job) (hs : job.sent ss = true) :
    Down w depth top (step w s (.finish n j)) s := by
  have hfin : step w s (.finish n j) =
      if ss.isEmpty then
        give w { s with tasks := put s.tasks n ((s.tasks n).eraseIdx j) } (t, job.response)
      else dispose
        (give w { s with tasks := put s.tasks n ((s.tasks n).eraseIdx j) } (t, job.response)) := by
    unfold step
    rw [if_neg (show ¬ s.status ≠ .active from fun h' => h' ha)]
    simp only [hk, hj, hs, if_true]
  have htt : t ∈ (Kind.node true f t ss items).shape.targets := by
    simp [Kind.shape, Flow.Kind.targets]
  have hp := give_passed (w := w) ({ s with
      tasks := put s.tasks n ((s.tasks n).eraseIdx j) } : State α) (p := (t, job.response))
    (Wired.exists hw hk htt)
  have hps : ∀ m u, (m, u) ∈ [(t, job.response)] →
      m ∈ (Kind.node true f t ss items).shape.targets := by
    intro m' u' h
    simp only [List.mem_singleton, Prod.mk.injEq] at h
    rw [h.1]
    exact htt
  rw [hfin]
  split
  · exact down_tasks hn hk (load_erase hj) (fun m' hm' => load_put m' hm') rfl rfl hp hps
  · exact down_tasks hn hk (load_erase hj) (fun m' hm' => load_put m' hm') rfl rfl hp.dispose hps

theorem down_check {s : State α} (ha : s.status = .active) (hc : s.checks ≠ 0) :
    Down w depth top (step w s .check) s := by
  have hst : step w s .check = validate w { s with checks := s.checks - 1 } := by
    unfold step
    rw [if_neg (show ¬ s.status ≠ .active from fun h' => h' ha)]
    simp only
    rw [if_neg hc]
  have hl : ∀ q, left (step w s .check) q = left { s with checks := s.checks - 1 } q := by
    intro q
    rw [hst]
    unfold validate
    split <;> (match q with
      | none => rfl
      | some (m, true) => rfl
      | some (m, false) => rfl)
  refine ⟨none, List.mem_cons_self, by simp only [level]; omega, ?_, ?_⟩
  · rw [hl]; simp only [left]; omega
  · intro q hq
    rw [hl] at hq
    match q, hq with
    | none, hq => simp only [left] at hq; omega
    | some (m, true), hq => exact absurd hq (Nat.lt_irrefl _)
    | some (m, false), hq => exact absurd hq (Nat.lt_irrefl _)

/-- Every event that changes something leads down. -/
theorem step_down (hw : Wired w.net) (hn : Numbered w depth top) (s : State α) (e : Ev) :
    step w s e = s ∨ Down w depth top (step w s e) s := by
  by_cases ha : s.status = .active
  · cases e with
    | exec n =>
      cases hk : w.ops.lookup n with
      | none =>
        left
        unfold step
        rw [if_neg (show ¬ s.status ≠ .active from fun h' => h' ha)]
        simp only [hk]
      | some k =>
        by_cases hj : ∃ bs t pack, k = .join bs t pack
        · obtain ⟨bs, t, pack, rfl⟩ := hj
          by_cases hwk : s.wakes n = 0
          · left
            unfold step
            rw [if_neg (show ¬ s.status ≠ .active from fun h' => h' ha)]
            simp only [hk]
            rw [if_pos hwk]
          · exact Or.inr (down_fire hw hn ha hk hwk)
        · cases hp : s.pending n with
          | nil =>
            left
            unfold step
            rw [if_neg (show ¬ s.status ≠ .active from fun h' => h' ha)]
            simp only [hk]
            cases k with
            | join bs t pack => exact absurd ⟨bs, t, pack, rfl⟩ hj
            | _ => simp only [hp]
          | cons v vs =>
            exact Or.inr (down_exec hw hn ha hk (fun bs t pack h => hj ⟨bs, t, pack, h⟩) hp)
    | item n j i =>
      by_cases h : ∃ f t ss items job m u us, w.ops.lookup n = some (.node true f t ss items) ∧
          (s.tasks n)[j]? = some job ∧ ss[i]? = some m ∧ job.left[i]? = some (u :: us)
      · obtain ⟨f, t, ss, items, job, m, u, us, hk, hj, hi, hl⟩ := h
        exact Or.inr (down_item hw hn ha hk hj hi hl)
      · left
        unfold step
        rw [if_neg (show ¬ s.status ≠ .active from fun h' => h' ha)]
        simp only
        split
        · rename_i f t ss items hk
          split
          · rename_i job m hj hi
            split
            · rename_i u us hl
              exact absurd ⟨f, t, ss, items, job, m, u, us, hk, hj, hi, hl⟩ h
            · rfl
          · rfl
        · rfl
    | finish n j =>
      by_cases h : ∃ f t ss items job, w.ops.lookup n = some (.node true f t ss items) ∧
          (s.tasks n)[j]? = some job ∧ job.sent ss = true
      · obtain ⟨f, t, ss, items, job, hk, hj, hs⟩ := h
        exact Or.inr (down_finish hw hn ha hk hj hs)
      · left
        unfold step
        rw [if_neg (show ¬ s.status ≠ .active from fun h' => h' ha)]
        simp only
        split
        · rename_i f t ss items hk
          split
          · rename_i job hj
            rw [if_neg (fun hs => h ⟨f, t, ss, items, job, hk, hj, hs⟩)]
          · rfl
        · rfl
    | lose n j =>
      by_cases h : ∃ f t ss items, w.ops.lookup n = some (.node true f t ss items) ∧
          j < (s.tasks n).length
      · obtain ⟨f, t, ss, items, hk, hj⟩ := h
        right
        have hst : step w s (.lose n j) =
            dispose { s with tasks := put s.tasks n ((s.tasks n).eraseIdx j) } := by
          unfold step
          rw [if_neg (show ¬ s.status ≠ .active from fun h' => h' ha)]
          simp only [hk]
          rw [if_pos hj]
        rw [hst]
        exact down_tasks hn hk (load_erase (List.getElem?_eq_getElem hj))
          (fun m' hm' => load_put m' hm') rfl rfl (Passed.nil w _).dispose (by simp)
      · left
        unfold step
        rw [if_neg (show ¬ s.status ≠ .active from fun h' => h' ha)]
        simp only
        split
        · rename_i f t ss items hk
          rw [if_neg (fun hj => h ⟨f, t, ss, items, hk, hj⟩)]
        · rfl
    | check =>
      by_cases hc : s.checks = 0
      · left
        unfold step
        rw [if_neg (show ¬ s.status ≠ .active from fun h' => h' ha)]
        simp only
        rw [if_pos hc]
      · exact Or.inr (down_check ha hc)
  · left
    unfold step
    rw [if_pos ha]

end

/-! ### Only joins are told, only nodes have tasks -/

structure Tidy (w : Work α) (s : State α) : Prop where
  wakes : ∀ n, s.wakes n ≠ 0 → ∃ bs t pack, w.ops.lookup n = some (.join bs t pack)
  tasks : ∀ n, s.tasks n ≠ [] → ∃ f t ss items, w.ops.lookup n = some (.node true f t ss items)

theorem Tidy.same {w : Work α} {s s' : State α} (h : Tidy w s) (h1 : s'.wakes = s.wakes)
    (h2 : s'.tasks = s.tasks) : Tidy w s' :=
  ⟨by rw [h1]; exact h.wakes, by rw [h2]; exact h.tasks⟩

theorem Tidy.put {w : Work α} {s : State α} (h : Tidy w s) {n : Nat} {f : α → α} {t : Nat}
    {ss : List Nat} {items : α → List (List α)}
    (hk : w.ops.lookup n = some (.node true f t ss items)) (js : List (Job α)) :
    Tidy w { s with tasks := put s.tasks n js } := by
  refine ⟨h.wakes, fun m hm => ?_⟩
  by_cases hmn : m = n
  · subst hmn; exact ⟨f, t, ss, items, hk⟩
  · exact h.tasks m (by simpa [Values.put, hmn] using hm)

theorem Tidy.validate {w : Work α} {s : State α} (h : Tidy w s) : Tidy w (validate w s) := by
  unfold Values.validate
  split <;> exact h.same rfl rfl

theorem Tidy.step {w : Work α} (hw : Wired w.net) {s : State α} (h : Tidy w s) (e : Ev) :
    Tidy w (step w s e) := by
  unfold Values.step
  split
  · exact h
  · cases e with
    | exec n =>
      simp only
      cases hk : w.ops.lookup n with
      | none => exact h
      | some k =>
        have other : Tidy w (match s.pending n with
            | [] => s
            | v :: vs => execute w { s with pending := Values.put s.pending n vs } n v k) := by
          cases hp : s.pending n with
          | nil => exact h
          | cons v vs =>
            simp only
            have h0 : Tidy w { s with pending := Values.put s.pending n vs } := h.same rfl rfl
            have passes : k.passes = true →
                Tidy w (execute w { s with pending := Values.put s.pending n vs } n v k) := by
              intro hps
              obtain ⟨ps, hpd, _⟩ := execute_passed hw
                { s with pending := Values.put s.pending n vs } v hk hps
              exact h0.same hpd.wakes hpd.tasks
            cases k with
            | node async f t ss items =>
              cases async with
              | false => exact passes rfl
              | true => exact h0.put hk _
            | buffer r =>
              refine ⟨fun m hm => ?_, h.tasks⟩
              by_cases hl : m ∈ Flow.listeners w.net n
              · obtain ⟨bs, t, pack, hj, _⟩ := listener_join hw hl
                exact ⟨bs, t, pack, hj⟩
              · refine h.wakes m ?_
                simpa only [execute, notify, foldl_bump _ _ _ hl] using hm
            | join bs t pack => exact h0
            | cancel => exact h0.same rfl rfl
            | terminate => exact h0.same rfl rfl
            | _ => exact passes rfl
        cases k with
        | join bs t pack =>
          simp only
          split
          · exact h
          · have h0 : Tidy w { s with wakes := Flow.drop s.wakes n } := by
              refine ⟨fun m hm => h.wakes m ?_, h.tasks⟩
              simp only [Flow.drop] at hm
              split at hm <;> omega
            unfold fire
            split
            · split
              · exact h0.same rfl rfl
              · rename_i vs hd _
                have hp := give_passed (w := w)
                  ({ s with wakes := Flow.drop s.wakes n, held := hd } : State α)
                  (p := (t, pack vs))
                  (Wired.exists hw hk (by simp [Kind.shape, Flow.Kind.targets]))
                exact h0.same hp.wakes hp.tasks
            · exact h0
        | _ => exact other
    | item n j i =>
      simp only
      split
      · rename_i f t ss items hk
        split
        · rename_i job m hj hm
          split
          · have hp := fun us u => give_passed (w := w) ({ s with
                tasks := Values.put s.tasks n ((s.tasks n).set j ⟨job.left.set i us, job.response⟩) } : State α) (p := (m, u))
              (Wired.exists hw hk (List.mem_cons_of_mem _ (List.mem_of_getElem? hm)))
            exact (h.put hk _).same (hp _ _).wakes (hp _ _).tasks
          · exact h
        · exact h
      · exact h
    | finish n j =>
      simp only
      split
      · rename_i f t ss items hk
        split
        · rename_i job hj
          split
          · have hp := give_passed (w := w) ({ s with
                tasks := Values.put s.tasks n ((s.tasks n).eraseIdx j) } : State α)
              (p := (t, job.response))
              (Wired.exists hw hk (by simp [Kind.shape, Flow.Kind.targets]))
            split
            · exact (h.put hk _).same hp.wakes hp.tasks
            · exact (h.put hk _).same hp.wakes hp.tasks
          · exact h
        · exact h
      · exact h
    | lose n j =>
      simp only
      split
      · rename_i hk
        split
        · exact (h.put hk _).same rfl rfl
        · exact h
      · exact h
    | check =>
      simp only
      split
      · exact h
      · exact Tidy.validate (s := { s with checks := s.checks - 1 }) (h.same rfl rfl)

theorem Tidy.start {w : Work α} (hw : Wired w.net) (x : α) : Tidy w (start w x) := by
  have hp := give_passed (p := (w.entry, x)) (blank : State α) (Wired.entry_exists hw)
  have h0 : Tidy w (blank : State α) := ⟨by simp [blank], by simp [blank]⟩
  exact Tidy.validate (h0.same hp.wakes hp.tasks)

theorem Tidy.run {w : Work α} (hw : Wired w.net) (es : List Ev) {s : State α} (h : Tidy w s) :
    Tidy w (run w s es) := by
  induction es generalizing s with
  | nil => exact h
  | cons e es ih => exact ih (h.step hw e)

/-! ### A session that nothing changes is over -/

/-- Messages come to operations that exist and are no joins. -/
theorem comes_at {w : Work α} (hw : Wired w.net) (hl : Layered w) {x : α} {n : Nat} {v : α}
    (h : Comes w x n v) :
    ∃ k, w.ops.lookup n = some k ∧ ∀ bs t pack, k ≠ .join bs t pack := by
  have target : ∀ n k m, w.ops.lookup n = some k → m ∈ k.shape.targets →
      ∃ k, w.ops.lookup m = some k ∧ ∀ bs t pack, k ≠ .join bs t pack := by
    intro n k m hk hm
    cases hm' : w.ops.lookup m with
    | none => obtain ⟨k', h'⟩ := Wired.exists hw hk hm; rw [hm'] at h'; cases h'
    | some k' =>
      exact ⟨k', rfl, fun bs t pack h => hl.plain n k m hk hm bs t pack (by rw [hm', h])⟩
  cases h with
  | entry =>
    cases hm : w.ops.lookup w.entry with
    | none => obtain ⟨k', h'⟩ := Wired.entry_exists hw; rw [hm] at h'; cases h'
    | some k => exact ⟨k, rfl, fun bs t pack h => hl.begins bs t pack (by rw [hm, h])⟩
  | send n v k m u _ hk hs => exact target n k _ hk (sends_target hs)
  | join j bs t pack vs hk => exact target j _ _ hk (by simp [Kind.shape, Flow.Kind.targets])

theorem stuck_over {w : Work α} (hw : Wired w.net) (hl : Layered w) {x : α} {s : State α}
    (hs : Sound w x s) (ht : Tidy w s) (h : ∀ e, Kept e → step w s e = s) : Over s := by
  obtain ⟨depth, top, hn⟩ := hl.numbered
  by_cases ha : s.status = .active
  · refine Or.inr ⟨fun n => ?_, fun n => ?_, fun n => ?_, ?_⟩
    · cases hp : s.pending n with
      | nil => rfl
      | cons v vs =>
        obtain ⟨k, hk, hj⟩ := comes_at hw hl (hs.pending n v (by rw [hp]; exact List.mem_cons_self))
        exact absurd (h (.exec n) trivial) (down_exec hw hn ha hk hj hp).ne
    · by_cases hwk : s.wakes n = 0
      · exact hwk
      · obtain ⟨bs, t, pack, hk⟩ := ht.wakes n hwk
        exact absurd (h (.exec n) trivial) (down_fire hw hn ha hk hwk).ne
    · cases hj : s.tasks n with
      | nil => rfl
      | cons job js =>
        obtain ⟨f, t, ss, items, hk⟩ := ht.tasks n (by rw [hj]; simp)
        have hj' : (s.tasks n)[0]? = some job := by rw [hj]; rfl
        cases hst : job.sent ss with
        | true =>
          exact absurd (h (.finish n 0) trivial) (down_finish hw hn ha hk hj' hst).ne
        | false =>
          obtain ⟨i, mi, u, us, hi, hli⟩ : ∃ i mi u us, ss[i]? = some mi ∧
              job.left[i]? = some (u :: us) := by
            unfold Job.sent at hst
            rw [List.all_eq_false] at hst
            obtain ⟨l, hl, hne⟩ := hst
            obtain ⟨i, hi⟩ := List.getElem?_of_mem hl
            rw [List.getElem?_take] at hi
            split at hi
            · rename_i hlt
              cases l with
              | nil => simp at hne
              | cons u us => exact ⟨i, ss[i], u, us, List.getElem?_eq_getElem hlt, hi⟩
            · cases hi
          exact absurd (h (.item n 0 i) trivial) (down_item hw hn ha hk hj' hi hli).ne
    · by_cases hc : s.checks = 0
      · exact hc
      · exact absurd (h .check trivial) (down_check (w := w) (depth := depth) (top := top) ha hc).ne
  · exact Or.inl ha

/-! ### Endless schedules -/

theorem after_succ (w : Work α) (x : α) (f : Nat → Ev) (n : Nat) :
    after w x f (n + 1) = step w (after w x f n) (f n) := by
  unfold after run
  rw [List.range_succ, List.map_append, List.foldl_append]
  rfl

theorem settles {w : Work α} (hw : Wired w.net) (hl : Layered w) (x : α) (f : Nat → Ev) :
    ∃ N, ∀ n, N ≤ n → after w x f n = after w x f N := by
  obtain ⟨depth, top, hn⟩ := hl.numbered
  have key : ∀ l, Acc Lex l → ∀ m, levels w depth top (after w x f m) = l →
      ∃ N, ∀ n, N ≤ n → after w x f n = after w x f N := by
    intro l hacc
    induction hacc with
    | intro l _ ih =>
      intro m hm
      by_cases h : ∀ n, m ≤ n → after w x f n = after w x f m
      · exact ⟨m, h⟩
      · obtain ⟨d, hd⟩ : ∃ d, after w x f (m + d) ≠ after w x f m := by
          by_cases h' : ∃ d, after w x f (m + d) ≠ after w x f m
          · exact h'
          · refine absurd (fun n hn => ?_) h
            obtain ⟨d, rfl⟩ := Nat.exists_eq_add_of_le hn
            by_cases he : after w x f (m + d) = after w x f m
            · exact he
            · exact absurd ⟨d, he⟩ h'
        obtain ⟨d', h1, h2⟩ : ∃ d', after w x f (m + d') = after w x f m ∧
            after w x f (m + d' + 1) ≠ after w x f m := by
          clear h
          induction d with
          | zero => exact absurd rfl hd
          | succ d ihd =>
            by_cases he : after w x f (m + d) = after w x f m
            · exact ⟨d, he, hd⟩
            · exact ihd he
        have hs := after_succ w x f (m + d')
        have hdown : Down w depth top (after w x f (m + d' + 1)) (after w x f m) := by
          rcases step_down hw hn (after w x f (m + d')) (f (m + d')) with h3 | h3
          · rw [← hs, h1] at h3
            exact absurd h3 h2
          · rw [← hs, h1] at h3
            exact h3
        exact ih _ (by rw [← hm]; exact hdown.lex) _ rfl
  exact key _ (lex_acc _ _ rfl) 0 rfl

theorem ends {w : Work α} (hw : Wired w.net) (hl : Layered w) {x : α} {f : Nat → Ev}
    (hf : Progress w x f) :
    ∃ N, Over (after w x f N) ∧ ∀ n, N ≤ n → after w x f n = after w x f N := by
  obtain ⟨N, hN⟩ := settles hw hl x f
  refine ⟨N, stuck_over hw hl ((Sound.start hw x).run hw _) ((Tidy.start hw x).run hw _) ?_, hN⟩
  intro e he
  by_cases h : step w (after w x f N) e = after w x f N
  · exact h
  · obtain ⟨m, hm, hne⟩ := hf.goes N e he h
    exact absurd (hN m hm) hne

/-- A workflow without loops has none that lead into a join. -/
theorem Layered.noLoop {w : Work α} (hw : Wired w.net) (h : Layered w) :
    Flow.NoLoopIntoJoin w.net := by
  obtain ⟨depth, h1, h2⟩ := h.order
  have sender : ∀ n m, m ∈ Flow.feeders.senders w.net n → depth m < depth n := by
    intro n m hm
    obtain ⟨⟨m', k'⟩, he, rfl⟩ := List.mem_map.1 hm
    obtain ⟨he, ht⟩ := List.mem_filter.1 he
    obtain ⟨k, hk, rfl⟩ := mem_net he
    exact h1 _ k n (Wired.lookup hw hk) (by simpa using ht)
  have feeder : ∀ n m, m ∈ Flow.feeders w.net n → depth m < depth n := by
    intro n m hm
    unfold Flow.feeders at hm
    rw [net_lookup] at hm
    cases hk : w.ops.lookup n with
    | none => rw [hk] at hm; simp at hm
    | some k =>
      rw [hk] at hm
      cases k with
      | join bs t pack =>
        simp only [Option.map_some, Kind.shape] at hm
        obtain ⟨b, hb, rfl⟩ := List.mem_map.1 hm
        exact h2 n bs t pack b hk hb
      | buffer r =>
        simp only [Option.map_some, Kind.shape] at hm
        rcases List.mem_append.1 hm with hm | hm
        · exact sender n m hm
        · obtain ⟨⟨m', k'⟩, he, rfl⟩ := List.mem_map.1 hm
          obtain ⟨he, ht⟩ := List.mem_filter.1 he
          obtain ⟨k, hk, rfl⟩ := mem_net he
          cases k <;> simp [Kind.shape] at ht
      | _ => exact sender n m hm
  have acc : ∀ d n, depth n ≤ d → Acc (fun a b => a ∈ Flow.feeders w.net b) n := by
    intro d
    induction d with
    | zero =>
      intro n hn
      refine ⟨_, fun m hm => ?_⟩
      have := feeder n m hm
      omega
    | succ d ih =>
      intro n hn
      refine ⟨_, fun m hm => ih m ?_⟩
      have := feeder n m hm
      omega
  intro n bs t _ _
  exact acc _ n (Nat.le_refl _)

end Verif.Values
