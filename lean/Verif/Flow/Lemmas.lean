import Verif.Flow.Spec
import Verif.Graph.Props

/-
Helper lemmas for C78 and C79: what one event changes, and what it does to `Live`.
-/
namespace Verif.Flow

open Graph (Live)

/-! ### Finding operations -/

theorem lookup_of_mem {α : Type} {l : List (Nat × α)} (hn : (l.map (·.1)).Nodup) {n : Nat}
    {a : α} (h : (n, a) ∈ l) : l.lookup n = some a := by
  induction l with
  | nil => simp at h
  | cons e l ih =>
    obtain ⟨m, b⟩ := e
    simp only [List.map_cons, List.nodup_cons] at hn
    by_cases hm : n = m
    · subst hm
      rcases List.mem_cons.1 h with h | h
      · cases h; simp [List.lookup]
      · exact absurd (List.mem_map_of_mem (f := (·.1)) h) hn.1
    · rcases List.mem_cons.1 h with h | h
      · cases h; exact absurd rfl hm
      · have : (n == m) = false := by simpa using hm
        simp only [List.lookup, this]
        exact ih hn.2 h

theorem mem_of_lookup {α : Type} {l : List (Nat × α)} {n : Nat} {a : α}
    (h : l.lookup n = some a) : (n, a) ∈ l := Graph.lookup_mem_pair h

theorem lookup_of_key {α : Type} {l : List (Nat × α)} {n : Nat} (h : n ∈ l.map (·.1)) :
    ∃ a, l.lookup n = some a := by
  induction l with
  | nil => simp at h
  | cons e l ih =>
    obtain ⟨m, b⟩ := e
    by_cases hm : n = m
    · subst hm; exact ⟨b, by simp [List.lookup]⟩
    · have h1 : n ∈ l.map (·.1) := by
        rcases List.mem_cons.1 (by simpa using h : n ∈ m :: l.map (·.1)) with h | h
        · exact absurd h hm
        · exact h
      have : (n == m) = false := by simpa using hm
      simp only [List.lookup, this]
      exact ih h1

theorem key_of_lookup {α : Type} {l : List (Nat × α)} {n : Nat} {a : α}
    (h : l.lookup n = some a) : n ∈ l.map (·.1) :=
  List.mem_map_of_mem (f := (·.1)) (mem_of_lookup h)

theorem world_lookup (net : Net) (s : State) (n : Nat) :
    (world net s).lookup n = (net.ops.lookup n).map (look net s n) := by
  unfold world
  induction net.ops with
  | nil => rfl
  | cons e l ih =>
    obtain ⟨m, k⟩ := e
    simp only [List.map_cons, List.lookup]
    by_cases h : n = m
    · subst h; simp
    · have : (n == m) = false := by simpa using h
      simp only [this]; exact ih

theorem world_some {net : Net} {s : State} {n : Nat} {op : Graph.Op}
    (h : (world net s).lookup n = some op) :
    ∃ k, net.ops.lookup n = some k ∧ op = look net s n k := by
  rw [world_lookup] at h
  cases hk : net.ops.lookup n with
  | none => rw [hk] at h; simp at h
  | some k => rw [hk] at h; exact ⟨k, rfl, by simpa using h.symm⟩

theorem world_of {net : Net} {n : Nat} {k : Kind} (s : State) (h : net.ops.lookup n = some k) :
    (world net s).lookup n = some (look net s n k) := by
  rw [world_lookup, h]; rfl

theorem mem_inputs {net : Net} {n m : Nat} :
    n ∈ inputs net m ↔ (∃ k, (n, k) ∈ net.ops ∧ m ∈ k.targets) ∨
      ∃ bs t, net.ops.lookup m = some (.access true bs t) ∧ n ∈ bs := by
  unfold inputs
  rw [List.mem_append]
  refine or_congr ?_ ?_
  · simp only [List.mem_map, List.mem_filter, List.contains_iff_mem]
    constructor
    · rintro ⟨⟨a, k⟩, ⟨h1, h2⟩, rfl⟩
      exact ⟨k, h1, h2⟩
    · rintro ⟨k, h1, h2⟩
      exact ⟨(n, k), ⟨h1, h2⟩, rfl⟩
  · split
    · rename_i bs t h
      rw [h]
      constructor
      · intro hn; exact ⟨bs, t, rfl, hn⟩
      · rintro ⟨bs', t', h', hn⟩
        cases h'
        exact hn
    · rename_i h
      simp only [List.not_mem_nil, false_iff]
      rintro ⟨bs, t, h', _⟩
      exact h bs t h'

theorem hears_iff {k : Kind} {b : Nat} : k.hears b = true ↔
    (∃ bs t, k = .join bs t ∧ b ∈ bs.map (·.1)) ∨ ∃ bs t, k = .access true bs t ∧ b ∈ bs := by
  cases k with
  | join bs t =>
    simp only [Kind.hears, List.any_eq_true, decide_eq_true_eq]
    constructor
    · intro h; exact Or.inl ⟨bs, t, rfl, List.mem_map.2 h⟩
    · rintro (⟨bs', t', h, hb⟩ | ⟨bs', t', h, _⟩)
      · cases h; exact List.mem_map.1 hb
      · cases h
  | access l bs t =>
    cases l with
    | true =>
      simp only [Kind.hears, List.contains_iff_mem]
      constructor
      · intro h; exact Or.inr ⟨bs, t, rfl, h⟩
      · rintro (⟨bs', t', h, hb⟩ | ⟨bs', t', h, hb⟩)
        · cases h
        · cases h; exact hb
    | false => simp [Kind.hears]
  | _ => simp [Kind.hears]

theorem mem_listeners {net : Net} {b j : Nat} :
    j ∈ listeners net b ↔ (∃ bs t, (j, Kind.join bs t) ∈ net.ops ∧ b ∈ bs.map (·.1)) ∨
      ∃ bs t, (j, Kind.access true bs t) ∈ net.ops ∧ b ∈ bs := by
  unfold listeners
  constructor
  · intro h
    obtain ⟨⟨a, k⟩, he, rfl⟩ := List.mem_map.1 h
    obtain ⟨h1, h2⟩ := List.mem_filter.1 he
    rcases hears_iff.1 h2 with ⟨bs, t, rfl, hb⟩ | ⟨bs, t, rfl, hb⟩
    · exact Or.inl ⟨bs, t, h1, hb⟩
    · exact Or.inr ⟨bs, t, h1, hb⟩
  · rintro (⟨bs, t, h1, hb⟩ | ⟨bs, t, h1, hb⟩)
    · exact List.mem_map.2 ⟨_, List.mem_filter.2 ⟨h1, hears_iff.2 (Or.inl ⟨bs, t, rfl, hb⟩)⟩, rfl⟩
    · exact List.mem_map.2 ⟨_, List.mem_filter.2 ⟨h1, hears_iff.2 (Or.inr ⟨bs, t, rfl, hb⟩)⟩, rfl⟩

theorem listeners_exist {net : Net} {b j : Nat} (h : j ∈ listeners net b) :
    j ∈ net.ops.map (·.1) := by
  unfold listeners at h
  obtain ⟨e, he, rfl⟩ := List.mem_map.1 h
  exact List.mem_map_of_mem (f := (·.1)) (List.mem_filter.1 he).1

theorem mem_gateNodes {net : Net} {b g : Nat} {o : Bool} :
    (g, o) ∈ gateNodes net b ↔ ∃ bs t, (g, Kind.gate o bs t) ∈ net.ops ∧ b ∈ bs := by
  unfold gateNodes
  simp only [List.mem_filterMap]
  constructor
  · rintro ⟨⟨a, k⟩, h1, h2⟩
    cases k with
    | gate o' bs t =>
      simp only [List.contains_iff_mem] at h2
      split at h2
      · cases h2; exact ⟨bs, t, h1, by assumption⟩
      · cases h2
    | _ => cases h2
  · rintro ⟨bs, t, h1, h2⟩
    exact ⟨_, h1, by simp [h2]⟩

theorem mem_accessors {net : Net} {s : State} {b : Nat} {p : Nat × (Nat → Bool)} :
    p ∈ accessors net s b ↔ ∃ l bs t, (p.1, Kind.access l bs t) ∈ net.ops ∧ b ∈ bs ∧
      p.2 = fun _ => used s p.1 bs := by
  unfold accessors
  simp only [List.mem_filterMap]
  constructor
  · rintro ⟨⟨a, k⟩, h1, h2⟩
    cases k with
    | access l bs t =>
      simp only [List.contains_iff_mem] at h2
      split at h2
      · cases h2; exact ⟨l, bs, t, h1, by assumption, rfl⟩
      · cases h2
    | _ => cases h2
  · rintro ⟨l, bs, t, h1, h2, h3⟩
    refine ⟨_, h1, ?_⟩
    obtain ⟨a, f⟩ := p
    simp only at h3
    simp [h2, h3]

theorem Wired.sane {net : Net} (hw : Wired net) (s : State) : Graph.Sane (world net s) := by
  intro n op h
  obtain ⟨k, hk, rfl⟩ := world_some h
  have keys : ∀ m, m ∈ net.ops.map (·.1) → (world net s).lookup m ≠ none := by
    intro m hm
    obtain ⟨a, ha⟩ := lookup_of_key hm
    rw [world_of s ha]; simp
  have bufs : ∀ m, (∃ cap, (m, Kind.buffer cap) ∈ net.ops) → (world net s).lookup m ≠ none := by
    rintro m ⟨cap, h⟩
    exact keys m (List.mem_map_of_mem (f := (·.1)) h)
  have ins : ∀ m, m ∈ inputs net n → (world net s).lookup m ≠ none := by
    intro m hm
    rcases mem_inputs.1 hm with ⟨k', h1, _⟩ | ⟨bs, t, h1, h2⟩
    · exact keys m (List.mem_map_of_mem (f := (·.1)) h1)
    · exact bufs m ((hw.accesses n true bs t (mem_of_lookup h1)).2 m h2)
  refine ⟨by cases k <;> simp [look], ?_⟩
  intro m hm
  cases k with
  | join bs t =>
    simp only [look, Graph.Op.sources, List.mem_map] at hm
    obtain ⟨_, ⟨b, hb, rfl⟩, rfl⟩ := hm
    exact bufs _ ((hw.joins n bs t (mem_of_lookup hk)).2.2 b hb)
  | buffer cap =>
    simp only [look, Graph.Op.sources, List.mem_append] at hm
    rcases hm with (hm | hm) | hm
    · obtain ⟨⟨g, o⟩, hg, rfl⟩ := List.mem_map.1 hm
      obtain ⟨bs, t, h1, _⟩ := mem_gateNodes.1 hg
      exact keys _ (List.mem_map_of_mem (f := (·.1)) h1)
    · obtain ⟨p, hp, rfl⟩ := List.mem_map.1 hm
      obtain ⟨l, bs, t, h1, _⟩ := mem_accessors.1 hp
      exact keys _ (List.mem_map_of_mem (f := (·.1)) h1)
    · exact ins m hm
  | unused => simp [look, Graph.Op.sources] at hm
  | _ => exact ins m (by simpa [look, Graph.Op.sources] using hm)

/-! ### Giving -/

theorem bump_self (f : Nat → Nat) (n : Nat) : bump f n n = f n + 1 := by simp [bump]
theorem bump_le (f : Nat → Nat) (n m : Nat) : f m ≤ bump f n m := by
  unfold bump; split <;> omega
theorem drop_self (f : Nat → Nat) (n : Nat) : drop f n n = f n - 1 := by simp [drop]
theorem drop_ne (f : Nat → Nat) {n m : Nat} (h : m ≠ n) : drop f n m = f m := by simp [drop, h]
theorem drop_le (f : Nat → Nat) (n m : Nat) : drop f n m ≤ f m := by
  unfold drop; split <;> omega

/-- What giving messages to existing operations does. -/
structure Given (net : Net) (s s' : State) (ms : List Nat) : Prop where
  tasks : s'.tasks = s.tasks
  held : s'.held = s.held
  checks : s'.checks = s.checks
  failures : s'.failures = s.failures
  status : s'.status = s.status
  keys : s'.keys = s.keys
  dropping : s'.dropping = s.dropping
  made : s'.made = s.made
  gates : s'.gates = s.gates
  le : ∀ m, s.pending m ≤ s'.pending m
  got : ∀ m k, m ∈ ms → net.ops.lookup m = some k → k ≠ .unused →
    s.pending m + 1 ≤ s'.pending m
  only : ∀ m, m ∉ ms → s'.pending m = s.pending m

theorem Given.nil (net : Net) (s : State) : Given net s s [] :=
  { tasks := rfl, held := rfl, checks := rfl, failures := rfl, status := rfl
    keys := rfl, dropping := rfl, made := rfl, gates := rfl
    le := fun _ => Nat.le_refl _
    got := fun m k h => by simp at h
    only := fun _ _ => rfl }

theorem give_given {net : Net} (s : State) {m : Nat} (h : m ∈ net.ops.map (·.1)) :
    Given net s (give net s m) [m] := by
  obtain ⟨k, hk⟩ := lookup_of_key h
  have hcases : k = .unused ∧ give net s m = s ∨
      k ≠ .unused ∧ give net s m = { s with pending := bump s.pending m } := by
    unfold give
    rw [hk]
    cases k <;> simp
  rcases hcases with ⟨rfl, he⟩ | ⟨hu, he⟩
  · rw [he]
    refine { Given.nil net s with got := ?_, only := fun _ _ => rfl }
    intro m' k' hm hk' hu
    have : m' = m := by simpa using hm
    subst this
    rw [hk] at hk'
    cases hk'
    exact absurd rfl hu
  · rw [he]
    exact
      { tasks := rfl, held := rfl, checks := rfl, failures := rfl, status := rfl
        keys := rfl, dropping := rfl, made := rfl, gates := rfl
        le := fun m' => bump_le _ _ _
        got := fun m' k' hm _ _ => by
          have : m' = m := by simpa using hm
          subst this
          simp [bump]
        only := fun m' hm => by
          have : m' ≠ m := by simpa using hm
          simp [bump, this] }

theorem Given.trans {net : Net} {s s' s'' : State} {ms ms' : List Nat}
    (h1 : Given net s s' ms) (h2 : Given net s' s'' ms') : Given net s s'' (ms ++ ms') :=
  { tasks := h2.tasks.trans h1.tasks
    held := h2.held.trans h1.held
    checks := h2.checks.trans h1.checks
    failures := h2.failures.trans h1.failures
    status := h2.status.trans h1.status
    keys := h2.keys.trans h1.keys
    dropping := h2.dropping.trans h1.dropping
    made := h2.made.trans h1.made
    gates := h2.gates.trans h1.gates
    le := fun m => Nat.le_trans (h1.le m) (h2.le m)
    got := fun m k hm hk hu => by
      rcases List.mem_append.1 hm with h | h
      · exact Nat.le_trans (h1.got m k h hk hu) (h2.le m)
      · exact Nat.le_trans (Nat.succ_le_succ (h1.le m)) (h2.got m k h hk hu)
    only := fun m hm => by
      rw [List.mem_append, not_or] at hm
      rw [h2.only m hm.2, h1.only m hm.1] }

theorem giveAll_given {net : Net} (ms : List Nat) (s : State)
    (h : ∀ m, m ∈ ms → m ∈ net.ops.map (·.1)) : Given net s (giveAll net s ms) ms := by
  induction ms generalizing s with
  | nil => exact Given.nil net s
  | cons m ms ih =>
    have h1 := give_given s (h m (by simp))
    have h2 := ih (give net s m) (fun x hx => h x (by simp [hx]))
    exact h1.trans h2

theorem mem_copies {ts : List Nat} {c : Choice} {m : Nat} (h : m ∈ copies ts c) : m ∈ ts := by
  induction ts generalizing c with
  | nil => simp [copies] at h
  | cons t ts ih =>
    simp only [copies, List.mem_append, List.mem_replicate] at h
    rcases h with ⟨_, rfl⟩ | h
    · simp
    · exact List.mem_cons_of_mem _ (ih h)

theorem copies_all {ts : List Nat} {c : Choice} (h : misses ts c = false) {m : Nat}
    (hm : m ∈ ts) : m ∈ copies ts c := by
  induction ts generalizing c with
  | nil => simp at hm
  | cons t ts ih =>
    simp only [misses, Bool.or_eq_false_iff, decide_eq_false_iff_not] at h
    simp only [copies, List.mem_append, List.mem_replicate]
    rcases List.mem_cons.1 hm with rfl | hm
    · exact Or.inl ⟨h.1, rfl⟩
    · exact Or.inr (ih h.2 hm)

/-! ### Buffers -/

theorem ready_iff {held : Nat → Nat} {bs : List (Nat × Bool)} :
    ready held bs = true ↔ bs ≠ [] ∧ ∀ b, b ∈ bs → 0 < held b.1 := by
  unfold ready
  simp

theorem fetch_le (held : Nat → Nat) (bs : List (Nat × Bool)) (m : Nat) :
    fetch held bs m ≤ held m := by
  unfold fetch
  induction bs generalizing held with
  | nil => exact Nat.le_refl _
  | cons b bs ih =>
    simp only [List.foldl_cons]
    refine Nat.le_trans (ih _) ?_
    split
    · exact Nat.le_refl _
    · exact drop_le _ _ _

theorem fetch_other (held : Nat → Nat) (bs : List (Nat × Bool)) {m : Nat}
    (h : m ∉ bs.map (·.1)) : fetch held bs m = held m := by
  unfold fetch
  induction bs generalizing held with
  | nil => rfl
  | cons b bs ih =>
    simp only [List.map_cons, List.mem_cons, not_or] at h
    simp only [List.foldl_cons]
    rw [ih _ h.2]
    split
    · rfl
    · exact drop_ne _ h.1

theorem fetch_pull (held : Nat → Nat) (bs : List (Nat × Bool)) {b : Nat × Bool} (hb : b ∈ bs)
    (hp : b.2 = false) : fetch held bs b.1 ≤ held b.1 - 1 := by
  unfold fetch
  induction bs generalizing held with
  | nil => simp at hb
  | cons a bs ih =>
    simp only [List.foldl_cons]
    rcases List.mem_cons.1 hb with rfl | hb
    · rw [if_neg (by simp [hp])]
      refine Nat.le_trans (fetch_le _ bs _) ?_
      rw [drop_self]
      exact Nat.le_refl _
    · refine Nat.le_trans (ih _ hb) ?_
      split
      · exact Nat.le_refl _
      · have := drop_le held a.1 b.1
        omega

theorem push_le (cap : Option Nat) (k : Nat) : push cap k ≤ k + 1 := by
  cases cap with
  | none => exact Nat.le_refl _
  | some c => simp only [push]; omega

theorem push_pos {cap : Option Nat} (h : cap ≠ some 0) (k : Nat) : 0 < push cap k := by
  cases cap with
  | none => simp [push]
  | some c =>
    have : c ≠ 0 := fun hc => h (by rw [hc])
    simp only [push]
    omega

theorem pushes_le (cap : Option Nat) (add k : Nat) : pushes cap add k ≤ k + add := by
  induction add with
  | zero => exact Nat.le_refl _
  | succ add ih =>
    simp only [pushes]
    have := push_le cap (pushes cap add k)
    omega

/-! ### What one event does -/

/-- Operations that look only at their messages, their tasks and what feeds them. -/
def Kind.plain : Kind → Bool
  | .join _ _ => false
  | .unused => false
  | .buffer _ => false
  | _ => true

/-- An operation holds activity of its own. -/
def active (k : Kind) (s : State) (n : Nat) : Prop :=
  match k with
  | .node _ _ _ => 0 < s.pending n ∨ 0 < s.tasks n
  | .scope _ _ => 0 < s.pending n ∨ 0 < s.tasks n
  | .join _ _ => False
  | .unused => False
  | .buffer _ => False
  | _ => 0 < s.pending n

theorem active_plain {k : Kind} {s : State} {m : Nat} (h : active k s m) : k.plain = true := by
  cases k <;> simp_all [active, Kind.plain]

theorem look_active {net : Net} {s : State} {n : Nat} {k : Kind} (hk : net.ops.lookup n = some k)
    (h : active k s n) : Live (world net s) 0 n := by
  have hl := world_of s hk
  cases k with
  | join => exact absurd h (by simp [active])
  | unused => exact absurd h (by simp [active])
  | buffer => exact absurd h (by simp [active])
  | _ => exact .active hl (by simpa [active] using h)

theorem look_input {net : Net} {s : State} {n i : Nat} {k : Kind}
    (hk : net.ops.lookup n = some k) (ht : k.plain = true) (hi : i ∈ inputs net n)
    (h : Live (world net s) 0 i) : Live (world net s) 0 n := by
  have hl := world_of s hk
  cases k with
  | join => simp [Kind.plain] at ht
  | unused => simp [Kind.plain] at ht
  | buffer => simp [Kind.plain] at ht
  | _ => exact .input hl hi h

theorem look_open {net : Net} {s : State} {b : Nat} {cap : Option Nat}
    (hk : net.ops.lookup b = some (.buffer cap)) (ho : isOpen s b = true) (h : 0 < s.pending b) :
    Live (world net s) 0 b :=
  .openActive (world_of s hk) ho (by simpa using h)

theorem look_open_input {net : Net} {s : State} {b i : Nat} {cap : Option Nat}
    (hk : net.ops.lookup b = some (.buffer cap)) (ho : isOpen s b = true) (hi : i ∈ inputs net b)
    (h : Live (world net s) 0 i) : Live (world net s) 0 b :=
  .openInput (world_of s hk) ho hi h

theorem look_key {net : Net} {s : State} {a b : Nat} {cap : Option Nat} {l : Bool}
    {bs : List Nat} {t : Nat} (hk : net.ops.lookup b = some (.buffer cap))
    (ha : net.ops.lookup a = some (.access l bs t)) (hb : b ∈ bs) (h : used s a bs = true) :
    Live (world net s) 0 b :=
  .keyUsed (world_of s hk)
    (mem_accessors.2 ⟨l, bs, t, mem_of_lookup ha, hb, rfl⟩ :
      (a, fun _ => used s a bs) ∈ accessors net s b) h

theorem look_access {net : Net} {s : State} {a b : Nat} {cap : Option Nat} {l : Bool}
    {bs : List Nat} {t : Nat} (hk : net.ops.lookup b = some (.buffer cap))
    (ha : net.ops.lookup a = some (.access l bs t)) (hb : b ∈ bs)
    (h : Live (world net s) 0 a) : Live (world net s) 0 b :=
  .keyLive (world_of s hk)
    (mem_accessors.2 ⟨l, bs, t, mem_of_lookup ha, hb, rfl⟩ :
      (a, fun _ => used s a bs) ∈ accessors net s b) h

/-- `Live` in the words of this model. -/
theorem live_ind {net : Net} (hn : (net.ops.map (·.1)).Nodup) {s : State} {P : Nat → Prop}
    (hactive : ∀ n k, net.ops.lookup n = some k → active k s n → P n)
    (hinput : ∀ n k i, net.ops.lookup n = some k → k.plain = true → i ∈ inputs net n →
      Live (world net s) 0 i → P i → P n)
    (hjoin : ∀ n bs t, net.ops.lookup n = some (.join bs t) →
      (∀ b, b ∈ bs → s.held b.1 = 0 → Live (world net s) 0 b.1 ∧ P b.1) → P n)
    (hkey : ∀ b cap a l bs t, net.ops.lookup b = some (.buffer cap) →
      net.ops.lookup a = some (.access l bs t) → b ∈ bs → used s a bs = true → P b)
    (hacc : ∀ b cap a l bs t, net.ops.lookup b = some (.buffer cap) →
      net.ops.lookup a = some (.access l bs t) → b ∈ bs → Live (world net s) 0 a → P a → P b)
    (hopen : ∀ b cap, net.ops.lookup b = some (.buffer cap) → isOpen s b = true →
      0 < s.pending b → P b)
    (hopenIn : ∀ b cap i, net.ops.lookup b = some (.buffer cap) → isOpen s b = true →
      i ∈ inputs net b → Live (world net s) 0 i → P i → P b)
    (hgate : ∀ b cap g bs t, net.ops.lookup b = some (.buffer cap) →
      net.ops.lookup g = some (.gate true bs t) → b ∈ bs → Live (world net s) 0 g → P g →
      (0 < s.pending b ∨ ∃ i, i ∈ inputs net b ∧ Live (world net s) 0 i ∧ P i) → P b)
    {n : Nat} (h : Live (world net s) 0 n) : P n := by
  induction h with
  | @active n a is hl ha =>
    obtain ⟨k, hk, he⟩ := world_some hl
    refine hactive n k hk ?_
    cases k <;> simp only [look] at he <;> cases he <;> simpa [active] using ha
  | @input n a is i hl hi h ih =>
    obtain ⟨k, hk, he⟩ := world_some hl
    cases k with
    | join => simp [look] at he
    | buffer => simp [look] at he
    | unused => simp only [look] at he; cases he; simp at hi
    | _ => simp only [look] at he; cases he; exact hinput n _ i hk rfl hi h ih
  | @join n is hl hb ih =>
    obtain ⟨k, hk, he⟩ := world_some hl
    cases k with
    | join bs t =>
      simp only [look] at he
      cases he
      refine hjoin n bs t hk ?_
      intro b hbm h0
      have hmem : (b.1, fun (_ : Nat) => s.held b.1) ∈ bs.map
          (fun b : Nat × Bool => (b.1, fun (_ : Nat) => s.held b.1)) :=
        List.mem_map.2 ⟨b, hbm, rfl⟩
      exact ⟨hb _ hmem h0, ih _ hmem h0⟩
    | _ => simp [look] at he
  | @keyUsed n o gs as a is p hl hk' hu =>
    obtain ⟨k, hk, he⟩ := world_some hl
    cases k <;> simp only [look] at he <;> cases he
    obtain ⟨l, bs, t, h1, h2, h3⟩ := mem_accessors.1 hk'
    rw [h3] at hu
    exact hkey n _ p.1 l bs t hk (lookup_of_mem hn h1) h2 hu
  | @keyLive n o gs as a is p hl hk' h ih =>
    obtain ⟨k, hk, he⟩ := world_some hl
    cases k <;> simp only [look] at he <;> cases he
    obtain ⟨l, bs, t, h1, h2, h3⟩ := mem_accessors.1 hk'
    exact hacc n _ p.1 l bs t hk (lookup_of_mem hn h1) h2 h ih
  | @openActive n o gs as a is hl ho ha =>
    obtain ⟨k, hk, he⟩ := world_some hl
    cases k <;> simp only [look] at he <;> cases he
    exact hopen n _ hk ho (by simpa using ha)
  | @openInput n o gs as a is i hl ho hi h ih =>
    obtain ⟨k, hk, he⟩ := world_some hl
    cases k <;> simp only [look] at he <;> cases he
    exact hopenIn n _ i hk ho hi h ih
  | @gateActive n o gs as a is g hl hg h ha ih =>
    obtain ⟨k, hk, he⟩ := world_some hl
    cases k <;> simp only [look] at he <;> cases he
    obtain ⟨bs, t, h1, h2⟩ := mem_gateNodes.1 hg
    exact hgate n _ g bs t hk (lookup_of_mem hn h1) h2 h ih (Or.inl (by simpa using ha))
  | @gateInput n o gs as a is g i hl hg h hi h' ih ih' =>
    obtain ⟨k, hk, he⟩ := world_some hl
    cases k <;> simp only [look] at he <;> cases he
    obtain ⟨bs, t, h1, h2⟩ := mem_gateNodes.1 hg
    exact hgate n _ g bs t hk (lookup_of_mem hn h1) h2 h ih (Or.inr ⟨i, hi, h', ih'⟩)

theorem active_mono {k : Kind} {s s' : State} {m : Nat} (h1 : s.pending m ≤ s'.pending m)
    (h2 : s.tasks m ≤ s'.tasks m) (h : active k s m) : active k s' m := by
  cases k <;> simp only [active] at h ⊢ <;> omega

theorem active_of_pending {k : Kind} {s : State} {m : Nat} (ht : k.plain = true)
    (h : 0 < s.pending m) : active k s m := by
  cases k <;> simp only [active] <;> first | exact h | exact Or.inl h | simp [Kind.plain] at ht

/-! ### What may still happen -/

/-- `Will net s n`: something may still come out of `n`. It differs from `Live` in one place: a
closed buffer counts if its gate may be opened, whether or not anything is on its way to it,
because its listeners are woken up by the gate. -/
inductive Will (net : Net) (s : State) : Nat → Prop where
  | active {n : Nat} {k : Kind} : net.ops.lookup n = some k → active k s n → Will net s n
  | input {n i : Nat} {k : Kind} : net.ops.lookup n = some k → k.plain = true →
      i ∈ inputs net n → Will net s i → Will net s n
  | join {n : Nat} {bs : List (Nat × Bool)} {t : Nat} : net.ops.lookup n = some (.join bs t) →
      (∀ b, b ∈ bs → s.held b.1 = 0 → Will net s b.1) → Will net s n
  | key {b a : Nat} {cap : Option Nat} {l : Bool} {bs : List Nat} {t : Nat} :
      net.ops.lookup b = some (.buffer cap) → net.ops.lookup a = some (.access l bs t) →
      b ∈ bs → used s a bs = true → Will net s b
  | access {b a : Nat} {cap : Option Nat} {l : Bool} {bs : List Nat} {t : Nat} :
      net.ops.lookup b = some (.buffer cap) → net.ops.lookup a = some (.access l bs t) →
      b ∈ bs → Will net s a → Will net s b
  | waiting {b : Nat} {cap : Option Nat} : net.ops.lookup b = some (.buffer cap) →
      isOpen s b = true → 0 < s.pending b → Will net s b
  | coming {b i : Nat} {cap : Option Nat} : net.ops.lookup b = some (.buffer cap) →
      isOpen s b = true → i ∈ inputs net b → Will net s i → Will net s b
  | gate {b g : Nat} {cap : Option Nat} {bs : List Nat} {t : Nat} :
      net.ops.lookup b = some (.buffer cap) → isOpen s b = false →
      net.ops.lookup g = some (.gate true bs t) → b ∈ bs → Will net s g → Will net s b

theorem will_of_live {net : Net} (hn : (net.ops.map (·.1)).Nodup) {s : State} {n : Nat}
    (h : Live (world net s) 0 n) : Will net s n := by
  refine live_ind hn (P := Will net s) ?_ ?_ ?_ ?_ ?_ ?_ ?_ ?_ h
  · intro n k hk ha; exact .active hk ha
  · intro n k i hk hp hi _ h; exact .input hk hp hi h
  · intro n bs t hk hb; exact .join hk (fun b hb' h0 => (hb b hb' h0).2)
  · intro b cap a l bs t hb ha hm hu; exact .key hb ha hm hu
  · intro b cap a l bs t hb ha hm _ h; exact .access hb ha hm h
  · intro b cap hb ho hp; exact .waiting hb ho hp
  · intro b cap i hb ho hi _ h; exact .coming hb ho hi h
  · intro b cap g bs t hb hg hm _ h hin
    cases ho : isOpen s b with
    | true =>
      rcases hin with hp | ⟨i, hi, _, h⟩
      · exact .waiting hb ho hp
      · exact .coming hb ho hi h
    | false => exact .gate hb ho hg hm h

/-- An event that announces no disposal; `D` are the operations that have passed on what they
had. -/
structure Moves (net : Net) (s s' : State) (D : Nat → Prop) : Prop where
  act : ∀ m k, net.ops.lookup m = some k → active k s m → active k s' m ∨ D m
  buf : ∀ b cap, net.ops.lookup b = some (.buffer cap) → Will net s' b ∨ D b ∨
    (isOpen s' b = isOpen s b ∧ (isOpen s b = true → 0 < s.pending b → 0 < s'.pending b))
  feed : ∀ x m k, D x → x ∈ inputs net m → net.ops.lookup m = some k → k ≠ .unused →
    0 < s'.pending m
  opened : ∀ g b bs t, D g → net.ops.lookup g = some (.gate true bs t) → b ∈ bs →
    isOpen s b = false → D b
  key : ∀ a l bs t, net.ops.lookup a = some (.access l bs t) → used s a bs = true →
    used s' a bs = true
  granted : ∀ a l bs t, D a → net.ops.lookup a = some (.access l bs t) → used s' a bs = true
  join : ∀ j bs t, net.ops.lookup j = some (.join bs t) → D j ∨
    ∀ b, b ∈ bs → 0 < s.held b.1 → 0 < s'.held b.1 ∨ Will net s' b.1
  stored : ∀ b, D b → Joined net b → 0 < s'.held b

theorem plain_used {k : Kind} (h : k.plain = true) : k ≠ .unused := by
  rintro rfl; simp [Kind.plain] at h

/-- An event without a disposal loses nothing, up to the operations that have just passed on what
they had. -/
theorem Moves.will {net : Net} {s s' : State} {D : Nat → Prop} (hm : Moves net s s' D) {x : Nat}
    (h : Will net s x) : Will net s' x ∨ D x := by
  induction h with
  | @active n k hk ha =>
    rcases hm.act n k hk ha with h | h
    · exact Or.inl (.active hk h)
    · exact Or.inr h
  | @input n i k hk hp hi _ ih =>
    left
    rcases ih with h | h
    · exact .input hk hp hi h
    · exact .active hk (active_of_pending hp (hm.feed i n k h hi hk (plain_used hp)))
  | @join n bs t hk _ ih =>
    rcases hm.join n bs t hk with h | h
    · exact Or.inr h
    · left
      refine .join hk (fun b hb h0 => ?_)
      rcases Nat.eq_zero_or_pos (s.held b.1) with hz | hz
      · rcases ih b hb hz with h1 | h1
        · exact h1
        · have := hm.stored b.1 h1 ⟨n, bs, t, mem_of_lookup hk, List.mem_map_of_mem (f := (·.1)) hb⟩
          omega
      · rcases h b hb hz with h1 | h1
        · omega
        · exact h1
  | @key b a cap l bs t hb ha hmem hu => exact Or.inl (.key hb ha hmem (hm.key a l bs t ha hu))
  | @access b a cap l bs t hb ha hmem _ ih =>
    left
    rcases ih with h | h
    · exact .access hb ha hmem h
    · exact .key hb ha hmem (hm.granted a l bs t h ha)
  | @waiting b cap hb ho hp =>
    rcases hm.buf b cap hb with h | h | ⟨h1, h2⟩
    · exact Or.inl h
    · exact Or.inr h
    · exact Or.inl (.waiting hb (h1.trans ho) (h2 ho hp))
  | @coming b i cap hb ho hi _ ih =>
    rcases hm.buf b cap hb with h | h | ⟨h1, _⟩
    · exact Or.inl h
    · exact Or.inr h
    · left
      rcases ih with h | h
      · exact .coming hb (h1.trans ho) hi h
      · exact .waiting hb (h1.trans ho) (hm.feed i b _ h hi hb (by simp))
  | @gate b g cap bs t hb ho hg hmem _ ih =>
    rcases hm.buf b cap hb with h | h | ⟨h1, _⟩
    · exact Or.inl h
    · exact Or.inr h
    · rcases ih with h | h
      · exact Or.inl (.gate hb (h1.trans ho) hg hmem h)
      · exact Or.inr (hm.opened g b bs t h hg hmem ho)

end Verif.Flow
