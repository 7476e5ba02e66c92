import Verif.Trim.Spec

/-
What the graph searches of a trim find.
-/
namespace Verif.Trim

open Verif.Graph (Net next)

/-! ### Walks -/

theorem Walk.cons {E : Nat → List Nat} {L I : Nat → Prop} {a b c : Nat} (hl : L a)
    (he : b ∈ E a) (hi : I b) (h : Walk E L I b c) : Walk E L I a c := by
  induction h with
  | here => exact .step .here hl he hi
  | step _ hl' he' hi' ih => exact .step ih hl' he' hi'

theorem Walk.trans {E : Nat → List Nat} {L I : Nat → Prop} {a b c : Nat} (h : Walk E L I a b)
    (h' : Walk E L I b c) : Walk E L I a c := by
  induction h' with
  | here => exact h
  | step _ hl he hi ih => exact .step ih hl he hi

/-- Follow a walk from its end. -/
theorem Walk.back {E : Nat → List Nat} {L I : Nat → Prop} {P : Nat → Prop} {b : Nat} (h0 : P b)
    (hs : ∀ p n, L p → n ∈ E p → I n → P n → P p) {a : Nat} (h : Walk E L I a b) : P a := by
  induction h with
  | here => exact h0
  | step _ hl he hi ih => exact ih (hs _ _ hl he hi h0)

theorem Walk.congr {E F : Nat → List Nat} {L L' I I' : Nat → Prop} {a b : Nat}
    (hE : ∀ p n, n ∈ E p → n ∈ F p) (hL : ∀ p, L p → L' p) (hI : ∀ p, I p → I' p)
    (h : Walk E L I a b) : Walk F L' I' a b := by
  induction h with
  | here => exact .here
  | step _ hl he hi ih => exact .step ih (hL _ hl) (hE _ _ he) (hI _ hi)

/-- Stop a walk when it meets `b`. -/
theorem Walk.stop {E : Nat → List Nat} {I : Nat → Prop} {a n : Nat} (b : Nat)
    (h : Walk E (fun _ => True) I a n) : Walk E (· ≠ b) I a n ∨ Walk E (· ≠ b) I a b := by
  induction h with
  | here => exact .inl .here
  | @step p n _ _ he hi ih =>
    rcases ih with h | h
    · by_cases hp : p = b
      · subst hp; exact .inr h
      · exact .inl (.step h hp he hi)
    · exact .inr h

theorem Walk.enter {E : Nat → List Nat} {L I : Nat → Prop} {a b : Nat} (h : Walk E L I a b) :
    b = a ∨ I b := by
  cases h with
  | here => exact .inl rfl
  | step _ _ _ hi => exact .inr hi

/-! ### Building the map -/

/-- The connections from `top` that were looked at. -/
structure Expanded (filter : List Nat) (top : Nat) (ns stack : List Nat) (m : Map)
    (r : List Nat × Map) : Prop where
  keys : ∀ n, n ∈ r.2.keys ↔ n ∈ m.keys ∨ (n ∈ ns ∧ n ∉ filter)
  links : ∀ n p, (n, p) ∈ r.2.links ↔ (n, p) ∈ m.links ∨ (p = top ∧ n ∈ ns ∧ n ∉ filter)
  stack : ∀ n, n ∈ r.1 ↔ n ∈ stack ∨ (n ∈ ns ∧ n ∉ filter ∧ n ∉ m.keys)

theorem expand_spec (filter : List Nat) (top : Nat) (ns : List Nat) : ∀ stack m,
    Expanded filter top ns stack m (expand filter top ns stack m) := by
  induction ns with
  | nil => intro stack m; constructor <;> simp [expand]
  | cons n ns ih =>
    intro stack m
    unfold expand
    by_cases hf : n ∈ filter
    · rw [if_pos hf]
      have h := ih stack m
      constructor
      · intro k
        rw [h.keys]
        constructor
        · rintro (h | ⟨h, h'⟩)
          · exact .inl h
          · exact .inr ⟨.tail _ h, h'⟩
        · rintro (h | ⟨h, h'⟩)
          · exact .inl h
          · cases h with
            | head => exact absurd hf h'
            | tail _ h => exact .inr ⟨h, h'⟩
      · intro k p
        rw [h.links]
        constructor
        · rintro (h | ⟨hp, h, h'⟩)
          · exact .inl h
          · exact .inr ⟨hp, .tail _ h, h'⟩
        · rintro (h | ⟨hp, h, h'⟩)
          · exact .inl h
          · cases h with
            | head => exact absurd hf h'
            | tail _ h => exact .inr ⟨hp, h, h'⟩
      · intro k
        rw [h.stack]
        constructor
        · rintro (h | ⟨h, h', h''⟩)
          · exact .inl h
          · exact .inr ⟨.tail _ h, h', h''⟩
        · rintro (h | ⟨h, h', h''⟩)
          · exact .inl h
          · cases h with
            | head => exact absurd hf h'
            | tail _ h => exact .inr ⟨h, h', h''⟩
    · rw [if_neg hf]
      dsimp only
      generalize hls : (if (n, top) ∈ m.links then m.links else (n, top) :: m.links) = ls
      have hlinks : ∀ q, q ∈ ls ↔ q ∈ m.links ∨ q = (n, top) := by
        intro q
        rw [← hls]
        split
        · next h =>
          constructor
          · exact .inl
          · rintro (h' | rfl)
            · exact h'
            · exact h
        · simp [or_comm]
      by_cases hk : n ∈ m.keys
      · rw [if_pos hk]
        have h := ih stack ⟨m.keys, ls⟩
        constructor
        · intro k
          rw [h.keys]
          constructor
          · rintro (h | ⟨h, h'⟩)
            · exact .inl h
            · exact .inr ⟨.tail _ h, h'⟩
          · rintro (h | ⟨h, h'⟩)
            · exact .inl h
            · cases h with
              | head => exact .inl hk
              | tail _ h => exact .inr ⟨h, h'⟩
        · intro k p
          rw [h.links]
          constructor
          · rintro (h | ⟨hp, h, h'⟩)
            · rcases (hlinks _).1 h with h | h
              · exact .inl h
              · cases h; exact .inr ⟨rfl, .head _, hf⟩
            · exact .inr ⟨hp, .tail _ h, h'⟩
          · rintro (h | ⟨hp, h, h'⟩)
            · exact .inl ((hlinks _).2 (.inl h))
            · cases h with
              | head => subst hp; exact .inl ((hlinks _).2 (.inr rfl))
              | tail _ h => exact .inr ⟨hp, h, h'⟩
        · intro k
          rw [h.stack]
          constructor
          · rintro (h | ⟨h, h', h''⟩)
            · exact .inl h
            · exact .inr ⟨.tail _ h, h', h''⟩
          · rintro (h | ⟨h, h', h''⟩)
            · exact .inl h
            · cases h with
              | head => exact absurd hk h''
              | tail _ h => exact .inr ⟨h, h', h''⟩
      · rw [if_neg hk]
        have h := ih (n :: stack) ⟨n :: m.keys, ls⟩
        constructor
        · intro k
          rw [h.keys]
          constructor
          · rintro (h | ⟨h, h'⟩)
            · cases h with
              | head => exact .inr ⟨.head _, hf⟩
              | tail _ h => exact .inl h
            · exact .inr ⟨.tail _ h, h'⟩
          · rintro (h | ⟨h, h'⟩)
            · exact .inl (.tail _ h)
            · cases h with
              | head => exact .inl (.head _)
              | tail _ h => exact .inr ⟨h, h'⟩
        · intro k p
          rw [h.links]
          constructor
          · rintro (h | ⟨hp, h, h'⟩)
            · rcases (hlinks _).1 h with h | h
              · exact .inl h
              · cases h; exact .inr ⟨rfl, .head _, hf⟩
            · exact .inr ⟨hp, .tail _ h, h'⟩
          · rintro (h | ⟨hp, h, h'⟩)
            · exact .inl ((hlinks _).2 (.inl h))
            · cases h with
              | head => subst hp; exact .inl ((hlinks _).2 (.inr rfl))
              | tail _ h => exact .inr ⟨hp, h, h'⟩
        · intro k
          rw [h.stack]
          constructor
          · rintro (h | ⟨h, h', h''⟩)
            · cases h with
              | head => exact .inr ⟨.head _, hf, hk⟩
              | tail _ h => exact .inl h
            · exact .inr ⟨.tail _ h, h', fun e => h'' (.tail _ e)⟩
          · rintro (h | ⟨h, h', h''⟩)
            · exact .inl (.tail _ h)
            · cases h with
              | head => exact .inl (.head _)
              | tail _ h =>
                by_cases e : k = n
                · subst e; exact .inl (.head _)
                · refine .inr ⟨h, h', ?_⟩
                  intro hc
                  cases hc with
                  | head => exact e rfl
                  | tail _ hc => exact h'' hc

/-- The state of the map while it is built. -/
structure Partly (w : Net) (a goal : Nat) (filter stack : List Nat) (m : Map) : Prop where
  walk : ∀ k ∈ m.keys, Walk (next w) (· ≠ goal) (· ∉ filter) a k
  start : a ∈ m.keys
  link : ∀ n p, (n, p) ∈ m.links → p ∈ m.keys ∧ p ≠ goal ∧ n ∈ next w p ∧ n ∉ filter
  inKeys : ∀ k ∈ stack, k ∈ m.keys
  done : ∀ p ∈ m.keys, p ∉ stack → p ≠ goal → ∀ n ∈ next w p, n ∉ filter →
    (n, p) ∈ m.links ∧ n ∈ m.keys

theorem Partly.pop {w : Net} {a goal top : Nat} {filter stack : List Nat} {m : Map}
    (h : Partly w a goal filter (top :: stack) m) (ht : top = goal) :
    Partly w a goal filter stack m := by
  refine ⟨h.walk, h.start, h.link, fun k hk => h.inKeys k (.tail _ hk), ?_⟩
  intro p hp hns hpg
  refine h.done p hp ?_ hpg
  intro hc
  cases hc with
  | head => exact hpg ht
  | tail _ hc => exact hns hc

theorem Partly.expand {w : Net} {a goal top : Nat} {filter stack : List Nat} {m : Map}
    (h : Partly w a goal filter (top :: stack) m) (ht : top ≠ goal) :
    Partly w a goal filter (expand filter top (next w top) stack m).1
      (expand filter top (next w top) stack m).2 := by
  have e := expand_spec filter top (next w top) stack m
  have htk : top ∈ m.keys := h.inKeys top (.head _)
  refine ⟨?_, (e.keys a).2 (.inl h.start), ?_, ?_, ?_⟩
  · intro k hk
    rcases (e.keys k).1 hk with hk | ⟨hn, hf⟩
    · exact h.walk k hk
    · exact .step (h.walk top htk) ht hn hf
  · intro n p hl
    rcases (e.links n p).1 hl with hl | ⟨rfl, hn, hf⟩
    · obtain ⟨h1, h2⟩ := h.link n p hl
      exact ⟨(e.keys p).2 (.inl h1), h2⟩
    · exact ⟨(e.keys _).2 (.inl htk), ht, hn, hf⟩
  · intro k hk
    rcases (e.stack k).1 hk with hk | ⟨hn, hf, -⟩
    · exact (e.keys k).2 (.inl (h.inKeys k (.tail _ hk)))
    · exact (e.keys k).2 (.inr ⟨hn, hf⟩)
  · intro p hp hns hpg n hn hf
    by_cases hpt : p = top
    · subst hpt
      exact ⟨(e.links n p).2 (.inr ⟨rfl, hn, hf⟩), (e.keys n).2 (.inr ⟨hn, hf⟩)⟩
    · have hpk : p ∈ m.keys := by
        rcases (e.keys p).1 hp with hpk | ⟨hn', hf'⟩
        · exact hpk
        · by_cases hk : p ∈ m.keys
          · exact hk
          · exact absurd ((e.stack p).2 (.inr ⟨hn', hf', hk⟩)) hns
      have hns' : p ∉ top :: stack := by
        intro hc
        cases hc with
        | head => exact hpt rfl
        | tail _ hc => exact hns ((e.stack p).2 (.inl hc))
      obtain ⟨h1, h2⟩ := h.done p hpk hns' hpg n hn hf
      exact ⟨(e.links n p).2 (.inl h1), (e.keys n).2 (.inl h2)⟩

theorem build_partly {w : Net} {a goal : Nat} {filter : List Nat} :
    ∀ (f : Nat) (stack : List Nat) (m m' : Map), Partly w a goal filter stack m →
      build w goal filter f stack m = some m' → Partly w a goal filter [] m' := by
  intro f
  induction f with
  | zero => intro stack m m' _ h; simp [build] at h
  | succ f ih =>
    intro stack m m' h hb
    cases stack with
    | nil => simp [build] at hb; subst hb; exact h
    | cons top stack =>
      unfold build at hb
      by_cases ht : top = goal
      · rw [if_pos ht] at hb
        exact ih _ _ _ (h.pop ht) hb
      · rw [if_neg ht] at hb
        exact ih _ _ _ (h.expand ht) hb

/-- What the map is in the end. -/
theorem Partly.final {w : Net} {a goal : Nat} {filter : List Nat} {m : Map}
    (h : Partly w a goal filter [] m) :
    (∀ k, k ∈ m.keys ↔ Walk (next w) (· ≠ goal) (· ∉ filter) a k) ∧
    ∀ n p, (n, p) ∈ m.links ↔ Walk (next w) (· ≠ goal) (· ∉ filter) a p ∧ p ≠ goal ∧
      n ∈ next w p ∧ n ∉ filter := by
  have hk : ∀ k, k ∈ m.keys ↔ Walk (next w) (· ≠ goal) (· ∉ filter) a k := by
    intro k
    refine ⟨h.walk k, ?_⟩
    intro hw
    induction hw with
    | here => exact h.start
    | step _ hl he hi ih => exact (h.done _ ih (by simp) hl _ he hi).2
  refine ⟨hk, ?_⟩
  intro n p
  constructor
  · intro hl
    obtain ⟨h1, h2, h3, h4⟩ := h.link n p hl
    exact ⟨h.walk p h1, h2, h3, h4⟩
  · rintro ⟨h1, h2, h3, h4⟩
    exact (h.done p ((hk p).2 h1) (by simp) h2 n h3 h4).1

/-! ### The crawl back -/

theorem crawl_spec {links : List (Nat × Nat)} {P : Nat → Prop}
    (hP : ∀ n p, P n → (n, p) ∈ links → P p) :
    ∀ (f : Nat) (stack nodes l : List Nat), (∀ n ∈ stack, P n) → (∀ n ∈ nodes, P n) →
      (∀ n ∈ nodes, ∀ p, (n, p) ∈ links → p ∈ nodes ∨ p ∈ stack) →
      crawl links f stack nodes = some l →
      (∀ n ∈ l, P n) ∧ (∀ n ∈ stack, n ∈ l) ∧ (∀ n ∈ nodes, n ∈ l) ∧
        ∀ n ∈ l, ∀ p, (n, p) ∈ links → p ∈ l := by
  intro f
  induction f with
  | zero => intro stack nodes l _ _ _ h; simp [crawl] at h
  | succ f ih =>
    intro stack nodes l hs hn hc h
    cases stack with
    | nil =>
      simp [crawl] at h
      subst h
      refine ⟨hn, by simp, fun n h => h, ?_⟩
      intro n hm p hl
      rcases hc n hm p hl with h | h
      · exact h
      · simp at h
    | cons top stack =>
      unfold crawl at h
      by_cases ht : top ∈ nodes
      · rw [if_pos ht] at h
        obtain ⟨h1, h2, h3, h4⟩ := ih stack nodes l (fun n h => hs n (.tail _ h)) hn (by
          intro n hm p hl
          rcases hc n hm p hl with h | h
          · exact .inl h
          · cases h with
            | head => exact .inl ht
            | tail _ h => exact .inr h) h
        refine ⟨h1, ?_, h3, h4⟩
        intro n hm
        cases hm with
        | head => exact h3 _ ht
        | tail _ hm => exact h2 n hm
      · rw [if_neg ht] at h
        have hpar : ∀ p, p ∈ (links.filter fun l => l.1 = top).map (·.2) ↔ (top, p) ∈ links := by
          intro p
          rw [List.mem_map]
          constructor
          · rintro ⟨⟨x, y⟩, hq, rfl⟩
            rw [List.mem_filter] at hq
            obtain ⟨hq, he⟩ := hq
            have : x = top := by simpa using he
            subst this
            exact hq
          · intro hq
            exact ⟨(top, p), by simp [List.mem_filter, hq], rfl⟩
        obtain ⟨h1, h2, h3, h4⟩ := ih _ (top :: nodes) l (by
            intro n hm
            rcases List.mem_append.1 hm with hm | hm
            · exact hP top n (hs top (.head _)) ((hpar n).1 hm)
            · exact hs n (.tail _ hm)) (by
            intro n hm
            cases hm with
            | head => exact hs _ (.head _)
            | tail _ hm => exact hn n hm) (by
            intro n hm p hl
            cases hm with
            | head => exact .inr (List.mem_append.2 (.inl ((hpar p).2 hl)))
            | tail _ hm =>
              rcases hc n hm p hl with h | h
              · exact .inl (.tail _ h)
              · cases h with
                | head => exact .inl (.head _)
                | tail _ h => exact .inr (List.mem_append.2 (.inr h))) h
        refine ⟨h1, ?_, fun n hm => h3 n (.tail _ hm), h4⟩
        intro n hm
        cases hm with
        | head => exact h3 _ (.head _)
        | tail _ hm => exact h2 n (List.mem_append.2 (.inr hm))

/-! ### Termination -/

/-- The connections that lead to nodes outside of `keys`. -/
def unmet (w : Net) (keys : List Nat) : Nat := ((edges w).filter fun e => e.2 ∉ keys).length

theorem mem_edges {w : Net} {p n : Nat} (h : n ∈ next w p) : (p, n) ∈ edges w := by
  have hk : p ∈ w.map (·.1) := by
    unfold next at h
    cases hl : w.lookup p with
    | none => simp [hl] at h
    | some l =>
      clear h
      induction w with
      | nil => simp at hl
      | cons q w ih =>
        obtain ⟨k, b⟩ := q
        by_cases e : p = k
        · simp [e]
        · have hb : (p == k) = false := by simp [e]
          rw [List.lookup_cons, hb] at hl
          exact .tail _ (ih hl)
  obtain ⟨q, hq, rfl⟩ := List.mem_map.1 hk
  exact List.mem_flatMap.2 ⟨q, hq, List.mem_map.2 ⟨n, h, rfl⟩⟩

theorem filter_le {A : Type} (l : List A) {p q : A → Bool} (h : ∀ a, p a = true → q a = true) :
    (l.filter p).length ≤ (l.filter q).length := by
  induction l with
  | nil => simp
  | cons a l ih =>
    by_cases hp : p a = true
    · simp [hp, h a hp, ih]
    · by_cases hq : q a = true
      · simp [hp, hq]; omega
      · simp [hp, hq, ih]

theorem filter_lt {A : Type} (l : List A) {p q : A → Bool} (h : ∀ a, p a = true → q a = true)
    {x : A} (hx : x ∈ l) (hq : q x = true) (hp : p x = false) :
    (l.filter p).length < (l.filter q).length := by
  induction l with
  | nil => simp at hx
  | cons a l ih =>
    rcases List.mem_cons.mp hx with rfl | hx
    · have := filter_le l h
      simp [hp, hq]; omega
    · have := ih hx
      by_cases hpa : p a = true
      · simp [hpa, h a hpa, this]
      · by_cases hqa : q a = true
        · simp [hpa, hqa]; omega
        · simp [hpa, hqa, this]

theorem unmet_cons {w : Net} {keys : List Nat} {p n : Nat} (h : n ∈ next w p) (hk : n ∉ keys) :
    unmet w (n :: keys) + 1 ≤ unmet w keys := by
  refine filter_lt _ ?_ (mem_edges h) ?_ ?_
  · intro a ha
    simp at ha ⊢
    exact ha.2
  · simpa using hk
  · simp

theorem expand_measure (w : Net) (filter : List Nat) (top : Nat) : ∀ (ns stack : List Nat)
    (m : Map), (∀ n ∈ ns, n ∈ next w top) →
    (expand filter top ns stack m).1.length + unmet w (expand filter top ns stack m).2.keys ≤
      stack.length + unmet w m.keys := by
  intro ns
  induction ns with
  | nil => intro stack m _; exact Nat.le_refl _
  | cons n ns ih =>
    intro stack m h
    have h' : ∀ n ∈ ns, n ∈ next w top := fun n hn => h n (.tail _ hn)
    unfold expand
    split
    · exact ih stack m h'
    · dsimp only
      split
      · exact ih stack _ h'
      · next hk =>
        refine Nat.le_trans (ih _ _ h') ?_
        have := unmet_cons (h n (.head _)) hk
        simp only [List.length_cons]
        omega

theorem build_some (w : Net) (goal : Nat) (filter : List Nat) : ∀ (f : Nat) (stack : List Nat)
    (m : Map), stack.length + unmet w m.keys < f →
    ∃ m', build w goal filter f stack m = some m' := by
  intro f
  induction f with
  | zero => intro stack m h; omega
  | succ f ih =>
    intro stack m h
    cases stack with
    | nil => exact ⟨m, rfl⟩
    | cons top stack =>
      simp only [List.length_cons] at h
      unfold build
      split
      · exact ih stack m (by omega)
      · have := expand_measure w filter top (next w top) stack m (fun n h => h)
        exact ih _ _ (by omega)

/-- The links from nodes that were not crawled. -/
def left (links : List (Nat × Nat)) (nodes : List Nat) : Nat :=
  (links.filter fun l => l.1 ∉ nodes).length

theorem left_cons (links : List (Nat × Nat)) (nodes : List Nat) (top : Nat) (h : top ∉ nodes) :
    left links (top :: nodes) + (links.filter fun l => l.1 = top).length = left links nodes := by
  induction links with
  | nil => rfl
  | cons l links ih =>
    unfold left at ih ⊢
    by_cases e : l.1 = top
    · simp only [List.filter_cons, e, List.mem_cons, true_or, not_true, decide_false, h,
        not_false_iff, decide_true, if_true]
      simp only [List.mem_cons] at ih
      simp
      simp at ih
      omega
    · by_cases hm : l.1 ∈ nodes
      · simp only [List.filter_cons, e, List.mem_cons, hm, or_true, not_true, decide_false]
        simp
        simp at ih
        omega
      · simp only [List.filter_cons, e, List.mem_cons, hm, or_self, not_false_iff, decide_true,
          decide_false, if_true]
        simp
        simp at ih
        omega

theorem crawl_some (links : List (Nat × Nat)) : ∀ (f : Nat) (stack nodes : List Nat),
    stack.length + left links nodes < f → ∃ l, crawl links f stack nodes = some l := by
  intro f
  induction f with
  | zero => intro stack nodes h; omega
  | succ f ih =>
    intro stack nodes h
    cases stack with
    | nil => exact ⟨nodes, rfl⟩
    | cons top stack =>
      simp only [List.length_cons] at h
      unfold crawl
      split
      · exact ih _ _ (by omega)
      · next ht =>
        have := left_cons links nodes top ht
        refine ih _ _ ?_
        rw [List.length_append, List.length_map]
        omega

/-! ### Spans -/

/-- What `calculate_span` computes. -/
theorem calculateSpan_spec (w : Net) (a b : Nat) (filter : List Nat) (hb : b ∉ filter) :
    ∃ l, calculateSpan w a b filter = some l ∧
      ∀ n, n ∈ l ↔ n = b ∨ (Walk (next w) (· ≠ b) (· ∉ filter) a n ∧
        Walk (next w) (· ≠ b) (· ∉ filter) n b) := by
  have hm : unmet w [a] ≤ (edges w).length := List.length_filter_le _ _
  obtain ⟨m, hbuild⟩ := build_some w b filter ((edges w).length + 2) [a] ⟨[a], []⟩
    (by simp only [List.length_singleton]; omega)
  have h0 : Partly w a b filter [a] ⟨[a], []⟩ := by
    refine ⟨?_, by simp, by simp, fun k h => h, ?_⟩
    · intro k hk
      simp at hk; subst hk; exact .here
    · intro p hp hns
      simp at hp hns
      exact absurd hp hns
  obtain ⟨-, hl⟩ := (build_partly _ _ _ _ h0 hbuild).final
  have hlen : left m.links [] ≤ m.links.length := List.length_filter_le _ _
  obtain ⟨l, hc⟩ := crawl_some m.links (m.links.length + 2) [b] []
    (by simp only [List.length_singleton]; omega)
  refine ⟨l, by simp [calculateSpan, hb, hbuild, hc], ?_⟩
  obtain ⟨h1, h2, -, h4⟩ := crawl_spec
    (P := fun n => n = b ∨ (Walk (next w) (· ≠ b) (· ∉ filter) a n ∧
        Walk (next w) (· ≠ b) (· ∉ filter) n b))
    (by
      intro n p hn hlk
      obtain ⟨ha, hg, he, hf⟩ := (hl n p).1 hlk
      right
      refine ⟨ha, ?_⟩
      rcases hn with rfl | ⟨-, hn⟩
      · exact .step .here hg he hf
      · exact .cons hg he hf hn)
    _ [b] [] l (by simp) (by simp) (by simp) hc
  intro n
  refine ⟨h1 n, ?_⟩
  rintro (rfl | ⟨ha, hn⟩)
  · exact h2 _ (.head _)
  · revert ha
    refine Walk.back (P := fun n => Walk (next w) (· ≠ b) (· ∉ filter) a n → n ∈ l) ?_ ?_ hn
    · intro _; exact h2 _ (.head _)
    · intro p n hg he hf ih ha
      exact h4 n (ih (.step ha hg he hf)) p ((hl n p).2 ⟨ha, hg, he, hf⟩)

/-- The filter is what lies between the entry and the start. -/
theorem upstreamFilter_spec (w : Net) (entry a : Nat) :
    ∃ l, upstreamFilter w entry a = some l ∧ ∀ n, n ∈ l ↔ Between (next w) entry a n := by
  obtain ⟨l, h, hl⟩ := calculateSpan_spec w entry a [] (by simp)
  refine ⟨l.filter fun n => n ≠ a, by simp [upstreamFilter, h], ?_⟩
  intro n
  rw [List.mem_filter]
  have he : ∀ x y, Walk (next w) (· ≠ a) (· ∉ ([] : List Nat)) x y ↔
      Walk (next w) (· ≠ a) (fun m => ¬ False) x y := by
    intro x y
    constructor
    · exact Walk.congr (fun _ _ h => h) (fun _ h => h) (fun _ _ h => h)
    · exact Walk.congr (fun _ _ h => h) (fun _ h => h) (fun _ _ h => by simp at h)
  simp only [hl, he, Between, OnWalk, decide_eq_true_eq]
  constructor
  · rintro ⟨h | h, hne⟩
    · exact absurd h hne
    · exact ⟨hne, h⟩
  · rintro ⟨hne, h⟩
    exact ⟨.inr h, hne⟩

/-! ### Downstream -/

theorem flow_spec {w : Net} {filter : List Nat} {P : Nat → Prop}
    (hP : ∀ p n, P p → n ∈ next w p → n ∉ filter → P n) :
    ∀ (f : Nat) (stack visited l : List Nat), (∀ n ∈ stack, n ∉ filter → P n) →
      (∀ n ∈ visited, P n) →
      (∀ p ∈ visited, ∀ n ∈ next w p, n ∉ filter → n ∈ visited ∨ n ∈ stack) →
      flow w filter f stack visited = some l →
      (∀ n ∈ l, P n) ∧ (∀ n ∈ stack, n ∉ filter → n ∈ l) ∧ (∀ n ∈ visited, n ∈ l) ∧
        ∀ p ∈ l, ∀ n ∈ next w p, n ∉ filter → n ∈ l := by
  intro f
  induction f with
  | zero => intro stack visited l _ _ _ h; simp [flow] at h
  | succ f ih =>
    intro stack visited l hs hn hc h
    cases stack with
    | nil =>
      simp [flow] at h
      subst h
      refine ⟨hn, by simp, fun n h => h, ?_⟩
      intro p hm n he hf
      rcases hc p hm n he hf with h | h
      · exact h
      · simp at h
    | cons top stack =>
      unfold flow at h
      by_cases htf : top ∈ filter
      · rw [if_pos htf] at h
        obtain ⟨h1, h2, h3, h4⟩ := ih stack visited l (fun n h => hs n (.tail _ h)) hn (by
          intro p hm n he hf
          rcases hc p hm n he hf with h | h
          · exact .inl h
          · cases h with
            | head => exact absurd htf hf
            | tail _ h => exact .inr h) h
        refine ⟨h1, ?_, h3, h4⟩
        intro n hm hf
        cases hm with
        | head => exact absurd htf hf
        | tail _ hm => exact h2 n hm hf
      rw [if_neg htf] at h
      by_cases ht : top ∈ visited
      · rw [if_pos ht] at h
        obtain ⟨h1, h2, h3, h4⟩ := ih stack visited l (fun n h => hs n (.tail _ h)) hn (by
          intro p hm n he hf
          rcases hc p hm n he hf with h | h
          · exact .inl h
          · cases h with
            | head => exact .inl ht
            | tail _ h => exact .inr h) h
        refine ⟨h1, ?_, h3, h4⟩
        intro n hm hf
        cases hm with
        | head => exact h3 _ ht
        | tail _ hm => exact h2 n hm hf
      · rw [if_neg ht] at h
        obtain ⟨h1, h2, h3, h4⟩ := ih _ (top :: visited) l (by
            intro n hm hf
            rcases List.mem_append.1 hm with hm | hm
            · exact hP top n (hs top (.head _) htf) (List.mem_reverse.1 hm) hf
            · exact hs n (.tail _ hm) hf) (by
            intro n hm
            cases hm with
            | head => exact hs _ (.head _) htf
            | tail _ hm => exact hn n hm) (by
            intro p hm n he hf
            cases hm with
            | head => exact .inr (List.mem_append.2 (.inl (List.mem_reverse.2 he)))
            | tail _ hm =>
              rcases hc p hm n he hf with h | h
              · exact .inl (.tail _ h)
              · cases h with
                | head => exact .inl (.head _)
                | tail _ h => exact .inr (List.mem_append.2 (.inr h))) h
        refine ⟨h1, ?_, fun n hm => h3 n (.tail _ hm), h4⟩
        intro n hm hf
        cases hm with
        | head => exact h3 _ (.head _)
        | tail _ hm => exact h2 n (List.mem_append.2 (.inr hm)) hf

theorem edges_of (w : Net) (p : Nat) :
    (next w p).length ≤ ((edges w).filter fun e => e.1 = p).length := by
  cases hl : w.lookup p with
  | none => simp [next, hl]
  | some l =>
    have hk : p ∈ w.map (·.1) := by
      induction w with
      | nil => simp at hl
      | cons q w ih =>
        obtain ⟨k, b⟩ := q
        by_cases e : p = k
        · simp [e]
        · have hb : (p == k) = false := by simp [e]
          rw [List.lookup_cons, hb] at hl
          exact .tail _ (ih hl)
    obtain ⟨q, hq, hqp⟩ := List.mem_map.1 hk
    have key : ∀ (v : Net), q ∈ v → (next w p).length ≤
        ((v.flatMap fun p => (next w p.1).map fun n => (p.1, n)).filter
          fun e => e.1 = p).length := by
      intro v hv
      induction v with
      | nil => simp at hv
      | cons r v ih =>
        rw [List.flatMap_cons, List.filter_append, List.length_append]
        rcases List.mem_cons.1 hv with rfl | hv
        · have : ((next w q.1).map fun n => (q.1, n)).filter (fun e => e.1 = p) =
              (next w q.1).map fun n => (q.1, n) := by
            rw [List.filter_eq_self]
            intro a ha
            obtain ⟨n, -, rfl⟩ := List.mem_map.1 ha
            simpa using hqp
          rw [this, List.length_map, hqp]
          omega
        · have := ih hv
          omega
    exact key w hq

theorem flow_some (w : Net) (filter : List Nat) : ∀ (f : Nat) (stack visited : List Nat),
    stack.length + left (edges w) visited < f → ∃ l, flow w filter f stack visited = some l := by
  intro f
  induction f with
  | zero => intro stack visited h; omega
  | succ f ih =>
    intro stack visited h
    cases stack with
    | nil => exact ⟨visited, rfl⟩
    | cons top stack =>
      simp only [List.length_cons] at h
      unfold flow
      split
      · exact ih _ _ (by omega)
      · split
        · exact ih _ _ (by omega)
        · next ht =>
          have h1 := left_cons (edges w) visited top ht
          have h2 := edges_of w top
          refine ih _ _ ?_
          rw [List.length_append, List.length_reverse]
          omega

/-! ### Branches -/

theorem accept_iff (p : Point) (n : Nat) : p.accept n = true ↔ p.inclusive = true ∨ n ≠ p.id := by
  simp [Point.accept]

theorem calculateDownstream_spec (w : Net) (entry : Nat) (p : Point) :
    ∃ l, calculateDownstream w entry p = some (.ok l) ∧
      ∀ n, n ∈ l ↔ DownstreamSpec (next w) entry p.id n ∧ (p.inclusive = true ∨ n ≠ p.id) := by
  obtain ⟨filter, hf, hfs⟩ := upstreamFilter_spec w entry p.id
  have hpf : p.id ∉ filter := fun h => ((hfs _).1 h).1 rfl
  have hlen : left (edges w) [] ≤ (edges w).length := List.length_filter_le _ _
  obtain ⟨l, hl⟩ := flow_some w filter ((edges w).length + 2) [p.id] []
    (by simp only [List.length_singleton]; omega)
  obtain ⟨h1, h2, -, h4⟩ := flow_spec (P := DownstreamSpec (next w) entry p.id)
    (fun q n hq he hn => Walk.step hq trivial he (fun hb => hn ((hfs n).2 hb)))
    _ _ _ _ (by intro n hn _; simp at hn; subst hn; exact .here) (by simp) (by simp) hl
  have hmem : p.id ∈ l := h2 _ (.head _) hpf
  have hne : l.isEmpty = false := by
    cases l with
    | nil => simp at hmem
    | cons _ _ => rfl
  refine ⟨l.filter fun n => p.accept n, by simp [calculateDownstream, hf, hl, hne], ?_⟩
  intro n
  rw [List.mem_filter, accept_iff]
  have : n ∈ l ↔ DownstreamSpec (next w) entry p.id n := by
    refine ⟨h1 n, ?_⟩
    intro hw
    induction hw with
    | here => exact hmem
    | step _ _ he hi ih => exact h4 _ ih _ he (fun h => hi ((hfs _).1 h))
  rw [this]

theorem calculateSpanNodes_spec (w : Net) (entry : Nat) (p q : Point) :
    (Between (next w) entry p.id q.id ∧
      calculateSpanNodes w entry p q = some (.error (p.id, some q.id))) ∨
    (¬ Between (next w) entry p.id q.id ∧ ∃ l, calculateSpanNodes w entry p q = some (.ok l) ∧
      ∀ n, n ∈ l ↔ (n = q.id ∨ SpanSpec (next w) entry p.id q.id n) ∧
        (p.inclusive = true ∨ n ≠ p.id) ∧ (q.inclusive = true ∨ n ≠ q.id)) := by
  obtain ⟨filter, hf, hfs⟩ := upstreamFilter_spec w entry p.id
  by_cases hb : q.id ∈ filter
  · left
    refine ⟨(hfs _).1 hb, ?_⟩
    simp [calculateSpanNodes, hf, calculateSpan, hb]
  · right
    refine ⟨fun h => hb ((hfs _).2 h), ?_⟩
    obtain ⟨l, hl, hls⟩ := calculateSpan_spec w p.id q.id filter hb
    have hne : l.isEmpty = false := by
      have : q.id ∈ l := (hls _).2 (.inl rfl)
      cases l with
      | nil => simp at this
      | cons _ _ => rfl
    refine ⟨l.filter fun n => p.accept n && q.accept n,
      by simp [calculateSpanNodes, hf, hl, hne], ?_⟩
    intro n
    rw [List.mem_filter, hls, Bool.and_eq_true, accept_iff, accept_iff]
    have he : ∀ x y, Walk (next w) (· ≠ q.id) (· ∉ filter) x y ↔
        Walk (next w) (· ≠ q.id) (fun m => ¬ Between (next w) entry p.id m) x y := by
      intro x y
      constructor
      · exact Walk.congr (fun _ _ h => h) (fun _ h => h) (fun _ h h' => h ((hfs _).2 h'))
      · exact Walk.congr (fun _ _ h => h) (fun _ h => h) (fun _ h h' => h ((hfs _).1 h'))
    simp only [he, SpanSpec, OnWalk]

/-! ### Sorting -/

theorem mem_insert {n m : Nat} {l : List Nat} : m ∈ insert n l ↔ m = n ∨ m ∈ l := by
  induction l with
  | nil => simp [insert]
  | cons k l ih =>
    unfold insert
    split
    · simp
    · simp only [List.mem_cons, ih]
      constructor
      · rintro (h | h | h)
        · exact .inr (.inl h)
        · exact .inl h
        · exact .inr (.inr h)
      · rintro (h | h | h)
        · exact .inr (.inl h)
        · exact .inl h
        · exact .inr (.inr h)

theorem mem_sort {m : Nat} {l : List Nat} : m ∈ sort l ↔ m ∈ l := by
  induction l with
  | nil => simp [sort]
  | cons n l ih => simp [sort, mem_insert, ih]

theorem sorted_insert {n : Nat} {l : List Nat} (h : l.Pairwise (· ≤ ·)) :
    (insert n l).Pairwise (· ≤ ·) := by
  induction l with
  | nil => simp [insert]
  | cons k l ih =>
    unfold insert
    obtain ⟨h1, h2⟩ := List.pairwise_cons.1 h
    split
    · next hn =>
      refine List.pairwise_cons.2 ⟨?_, h⟩
      intro m hm
      rcases List.mem_cons.1 hm with rfl | hm
      · exact hn
      · exact Nat.le_trans hn (h1 m hm)
    · next hn =>
      refine List.pairwise_cons.2 ⟨?_, ih h2⟩
      intro m hm
      rcases mem_insert.1 hm with rfl | hm
      · omega
      · exact h1 m hm

theorem sorted_sort (l : List Nat) : (sort l).Pairwise (· ≤ ·) := by
  induction l with
  | nil => simp [sort]
  | cons n l ih => exact sorted_insert ih

theorem mem_dedup {m : Nat} {l : List Nat} : m ∈ dedup l ↔ m ∈ l := by
  induction l with
  | nil => simp [dedup]
  | cons n l ih =>
    unfold dedup
    split
    · next h =>
      rw [ih, List.mem_cons]
      constructor
      · exact .inr
      · rintro (rfl | h')
        · exact List.mem_of_mem_head? h
        · exact h'
    · simp [ih]

theorem sorted_dedup {l : List Nat} (h : l.Pairwise (· ≤ ·)) : (dedup l).Pairwise (· < ·) := by
  induction l with
  | nil => simp [dedup]
  | cons n l ih =>
    unfold dedup
    obtain ⟨h1, h2⟩ := List.pairwise_cons.1 h
    split
    · exact ih h2
    · next hh =>
      refine List.pairwise_cons.2 ⟨?_, ih h2⟩
      intro m hm
      have hm := mem_dedup.1 hm
      cases l with
      | nil => simp at hm
      | cons k l =>
        have hk := h1 k (.head _)
        have hne : k ≠ n := by simpa using hh
        rcases List.mem_cons.1 hm with rfl | hm
        · omega
        · have := (List.pairwise_cons.1 h2).1 m hm
          omega

theorem gather_spec {A : Type} {f : A → Option (Except Invalid (List Nat))} {bad : A → Prop}
    {good : A → Nat → Prop}
    (hf : ∀ a, (bad a ∧ ∃ e, f a = some (.error e)) ∨
      (¬ bad a ∧ ∃ l, f a = some (.ok l) ∧ ∀ n, n ∈ l ↔ good a n)) :
    ∀ (as : List A) (all : List Nat),
      ((∃ a ∈ as, bad a) ∧ ∃ e, gather f as all = some (.error e)) ∨
      ((∀ a ∈ as, ¬ bad a) ∧ ∃ l, gather f as all = some (.ok l) ∧ l.Pairwise (· < ·) ∧
        ∀ n, n ∈ l ↔ n ∈ all ∨ ∃ a ∈ as, good a n) := by
  intro as
  induction as with
  | nil =>
    intro all
    right
    refine ⟨by simp, _, rfl, sorted_dedup (sorted_sort all), ?_⟩
    intro n
    rw [mem_dedup, mem_sort]
    simp
  | cons a as ih =>
    intro all
    rcases hf a with ⟨hb, e, he⟩ | ⟨hb, l, hl, hm⟩
    · left
      exact ⟨⟨a, .head _, hb⟩, e, by simp [gather, he]⟩
    · rcases ih (all ++ l) with ⟨⟨a', ha', hb'⟩, e, he⟩ | ⟨hb', l', hl', hs, hm'⟩
      · left
        exact ⟨⟨a', .tail _ ha', hb'⟩, e, by simp [gather, hl, he]⟩
      · right
        refine ⟨?_, l', by simp [gather, hl, hl'], hs, ?_⟩
        · intro a' ha'
          rcases List.mem_cons.1 ha' with rfl | ha'
          · exact hb
          · exact hb' a' ha'
        · intro n
          rw [hm', List.mem_append, hm]
          constructor
          · rintro ((h | h) | ⟨a', ha', h⟩)
            · exact .inl h
            · exact .inr ⟨a, .head _, h⟩
            · exact .inr ⟨a', .tail _ ha', h⟩
          · rintro (h | ⟨a', ha', h⟩)
            · exact .inl (.inl h)
            · rcases List.mem_cons.1 ha' with rfl | ha'
              · exact .inl (.inr h)
              · exact .inr ⟨a', ha', h⟩

end Verif.Trim
