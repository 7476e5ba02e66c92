import Verif.Split.Lemmas

set_option linter.unusedSectionVars false

/- Lemmas about the builder of a split. -/
namespace Verif.Split

open Verif.Input Verif.Fork

variable {Key : Type} [DecidableEq Key] {Id V K : Type} [DecidableEq K]

/-- What the builder knows of the connections granted so far. -/
structure BInv (b : Builder Key) (ks : Keys Key) (g : List (Key × Nat)) : Prop where
  cmds : b.cmds = g
  used : b.used = g.map (·.1)
  nodup : b.used.Nodup
  targets : g.map (·.2) = List.range' b.base b.spawned
  valid : ∀ k, k ∈ b.used → ks.validate k = true

theorem BInv.spawned_eq {b : Builder Key} {ks : Keys Key} {g} (h : BInv b ks g) :
    b.spawned = g.length := by
  have := congrArg List.length h.targets
  simpa using this.symm

theorem outputFor_cases (ks : Keys Key) (b : Builder Key) (k : Key) :
    (ks.validate k = false ∧ b.outputFor ks k = (b, .error .keyOutOfBounds)) ∨
    (ks.validate k = true ∧ k ∈ b.used ∧ b.outputFor ks k = (b, .error .keyAlreadyUsed)) ∨
    (ks.validate k = true ∧ k ∉ b.used ∧ b.outputFor ks k =
      ({ b with
        used := b.used ++ [k]
        spawned := b.spawned + 1
        cmds := b.cmds ++ [(k, b.base + b.spawned)] }, .ok (b.base + b.spawned))) := by
  cases hv : ks.validate k
  · left; simp [Builder.outputFor, hv]
  · right
    by_cases hk : k ∈ b.used
    · left; simp [Builder.outputFor, hv, hk]
    · right; simp [Builder.outputFor, hv, hk]

theorem BInv.cursor {b : Builder Key} {ks : Keys Key} {g} (h : BInv b ks g) (l : Option Key) :
    BInv { b with lastKey := l } ks g := ⟨h.cmds, h.used, h.nodup, h.targets, h.valid⟩

theorem BInv.grant {b : Builder Key} {ks : Keys Key} {g} (h : BInv b ks g) {k : Key}
    (hv : ks.validate k = true) (hk : k ∉ b.used) (l : Option Key) :
    BInv { b with
        used := b.used ++ [k]
        lastKey := l
        spawned := b.spawned + 1
        cmds := b.cmds ++ [(k, b.base + b.spawned)] } ks (g ++ [(k, b.base + b.spawned)]) where
  cmds := by simp [h.cmds]
  used := by simp [h.used]
  nodup := by
    show (b.used ++ [k]).Nodup
    rw [List.nodup_append]
    refine ⟨h.nodup, by simp, ?_⟩
    intro a ha c hc
    simp only [List.mem_singleton] at hc
    subst hc
    exact fun e => hk (e ▸ ha)
  targets := by
    show (g ++ [(k, b.base + b.spawned)]).map (·.2) = List.range' b.base (b.spawned + 1)
    rw [List.map_append, h.targets, List.range'_concat]
    simp
  valid := by
    intro c hc
    rcases List.mem_append.1 hc with hc | hc
    · exact h.valid c hc
    · simp only [List.mem_singleton] at hc; subst hc; exact hv

/-- The loop of `next` grants at most one connection. -/
theorem nextLoop_inv (ks : Keys Key) (g : List (Key × Nat)) : ∀ (fuel : Nat) (b : Builder Key),
    BInv b ks g →
    (∃ b' k t, b.nextLoop ks fuel = (b', some (some (k, t))) ∧ BInv b' ks (g ++ [(k, t)]) ∧
      b'.base = b.base) ∨
    (∃ b' r, b.nextLoop ks fuel = (b', r) ∧ (r = none ∨ r = some none) ∧ BInv b' ks g ∧
      b'.base = b.base) := by
  intro fuel
  induction fuel with
  | zero => intro b h; right; exact ⟨b, none, rfl, Or.inl rfl, h, rfl⟩
  | succ fuel ih =>
    intro b h
    unfold Builder.nextLoop
    cases hn : ks.next b.lastKey with
    | none => right; exact ⟨b, some none, rfl, Or.inr rfl, h, rfl⟩
    | some k =>
      simp only
      have hc := h.cursor (some k)
      rcases outputFor_cases ks { b with lastKey := some k } k with ⟨_, e⟩ | ⟨_, _, e⟩ | ⟨hv, hk, e⟩
      · rw [e]; right; exact ⟨_, some none, rfl, Or.inr rfl, hc, rfl⟩
      · rw [e]
        exact ih { b with lastKey := some k } hc
      · rw [e]
        left
        exact ⟨_, _, _, rfl, h.grant hv hk (some k), rfl⟩

theorem call_inv (ks : Keys Key) {b : Builder Key} {g : List (Key × Nat)} (h : BInv b ks g)
    (c : Call Key) :
    BInv (b.call ks c).1 ks (g ++ granted [(b.call ks c).2]) ∧ (b.call ks c).1.base = b.base := by
  cases c with
  | outputFor k =>
    rcases outputFor_cases ks b k with ⟨_, e⟩ | ⟨_, _, e⟩ | ⟨hv, hk, e⟩
    · simpa [Builder.call, e, granted] using h
    · simpa [Builder.call, e, granted] using h
    · simpa [Builder.call, e, granted] using h.grant hv hk b.lastKey
  | next =>
    rcases nextLoop_inv ks g (b.used.length + 1) b h with ⟨b', k, t, e, h', hb⟩ | ⟨b', r, e, hr, h', hb⟩
    · have e : b.next ks = (b', some (some (k, t))) := e
      simp only [Builder.call, e, granted]
      exact ⟨h', hb⟩
    · have e : b.next ks = (b', r) := e
      rcases hr with rfl | rfl <;> simp only [Builder.call, e, granted, List.append_nil] <;>
        exact ⟨h', hb⟩

theorem granted_cons (r : Ret Key) (rs : List (Ret Key)) :
    granted (r :: rs) = granted [r] ++ granted rs := by
  cases r <;> simp [granted]

theorem calls_inv (ks : Keys Key) (cs : List (Call Key)) : ∀ {b : Builder Key} {g},
    BInv b ks g → BInv (b.calls ks cs).1 ks (g ++ granted (b.calls ks cs).2) ∧
      (b.calls ks cs).1.base = b.base := by
  induction cs with
  | nil => intro b g h; simpa [Builder.calls, granted] using h
  | cons c cs ih =>
    intro b g h
    have h1 := call_inv ks h c
    have h2 := ih h1.1
    simp only [Builder.calls]
    rw [granted_cons, ← List.append_assoc]
    exact ⟨h2.1, h2.2.trans h1.2⟩

theorem BInv.init (ks : Keys Key) (base : Nat) : BInv ({ base } : Builder Key) ks [] :=
  ⟨rfl, rfl, by simp, rfl, by simp⟩

/-! ### The commands applied -/

theorem insertKey_new (m : List (Key × Nat)) (k : Key) (i : Nat)
    (h : k ∉ m.map (·.1)) : insertKey m k i = m ++ [(k, i)] := by
  induction m with
  | nil => rfl
  | cons p m ih =>
    obtain ⟨k', j⟩ := p
    simp only [List.map_cons, List.mem_cons, not_or] at h
    have : ¬ k' = k := fun e => h.1 e.symm
    simp [insertKey, this, ih h.2]

theorem zipIdx_keys (ks : List Key) (n : Nat) : (ks.zipIdx n).map (·.1) = ks := by
  induction ks generalizing n with
  | nil => rfl
  | cons k ks ih => simp [List.zipIdx_cons, ih]

theorem Linked.connect {s : Split Key Id V} {ks ts} (h : Linked s ks ts) {k : Key} (t : Nat)
    (hk : k ∉ ks) : Linked (s.connect k t) (ks ++ [k]) (ts ++ [t]) ∧
      (s.connect k t).doubled = s.doubled := by
  have hany : (ks.zipIdx.any fun p => decide (p.1 = k)) = false := by
    rw [List.any_eq_false]
    intro p hp he
    have : p.1 ∈ ks.zipIdx.map (·.1) := List.mem_map_of_mem hp
    rw [zipIdx_keys] at this
    exact hk ((of_decide_eq_true he) ▸ this)
  have hres : resize (List.replicate ks.length ([] : List (Id × V))) (ks.length + 1) =
      List.replicate (ks.length + 1) [] := by
    have : List.replicate ks.length ([] : List (Id × V)) ++ [[]] =
        List.replicate (ks.length + 1) [] := by
      rw [List.replicate_succ']
    rw [← this]
    simp [resize]
  have hins : insertKey ks.zipIdx k ks.length = (ks ++ [k]).zipIdx := by
    rw [insertKey_new _ _ _ (by rw [zipIdx_keys]; exact hk)]
    simp [List.zipIdx_append]
  have e : s.connect k t = { s with
      targets := ts ++ [t]
      connections := (ks ++ [k]).zipIdx
      cache := some (List.replicate (ks.length + 1) [])
      indexToKey := ks ++ [k] } := by
    simp only [Split.connect, h.connections, h.cache, h.targets, h.length, h.indexToKey, hany, hres,
      hins]
    simp
  refine ⟨?_, by rw [e]⟩
  rw [e]
  refine ⟨?_, by simp [h.length], rfl, rfl, by simp, rfl⟩
  rw [List.nodup_append]
  refine ⟨h.nodup, by simp, ?_⟩
  intro a ha c hc
  simp only [List.mem_singleton] at hc
  subst hc
  exact fun e => hk (e ▸ ha)

theorem connectAll_linked (g : List (Key × Nat)) : ∀ {s : Split Key Id V} {ks ts},
    Linked s ks ts → (ks ++ g.map (·.1)).Nodup →
    Linked (s.connectAll g) (ks ++ g.map (·.1)) (ts ++ g.map (·.2)) ∧
      (s.connectAll g).doubled = s.doubled := by
  induction g with
  | nil => intro s ks ts h _; simpa [Split.connectAll] using h
  | cons p g ih =>
    intro s ks ts h hn
    obtain ⟨k, t⟩ := p
    have hk : k ∉ ks := by
      intro hk
      rw [List.nodup_append] at hn
      exact hn.2.2 k hk k (by simp) rfl
    have h1 := h.connect t hk
    have h2 := ih h1.1 (by simpa using hn)
    simp only [Split.connectAll, List.map_cons]
    refine ⟨by simpa using h2.1, h2.2.trans h1.2⟩

theorem Linked.empty : Linked ({} : Split Key Id V) [] [] :=
  ⟨by simp, rfl, rfl, rfl, rfl, rfl⟩

/-! ### Iteration -/

/-- The cursor of an iteration whose next index is `c`. -/
def cursorAt (seq : Nat → Key) : Nat → Option Key
  | 0 => none
  | c + 1 => some (seq c)

/-- Keys whose iteration runs through `seq 0`, `seq 1`, ... as long as `within` holds. -/
structure SeqKeys (ks : Keys Key) (seq : Nat → Key) (idx : Key → Option Nat)
    (within : Nat → Bool) : Prop where
  idx_seq : ∀ c, idx (seq c) = some c
  next_in : ∀ c, within c = true → ks.next (cursorAt seq c) = some (seq c)
  next_out : ∀ c, within c = false → ks.next (cursorAt seq c) = none
  valid : ∀ c, within c = true → ks.validate (seq c) = true

/-- Number of used keys of the sequence from `c` on. -/
def ahead (idx : Key → Option Nat) (used : List Key) (c : Nat) : Nat :=
  used.countP fun k => (idx k).any fun j => decide (c ≤ j)

theorem ahead_le (idx : Key → Option Nat) (used : List Key) (c : Nat) :
    ahead idx used c ≤ used.length := List.countP_le_length

theorem ahead_succ {ks : Keys Key} {seq : Nat → Key} {idx within} (hs : SeqKeys ks seq idx within)
    {used : List Key} {c : Nat} (h : seq c ∈ used) :
    ahead idx used (c + 1) + 1 ≤ ahead idx used c := by
  induction used with
  | nil => simp at h
  | cons k used ih =>
    simp only [ahead, List.countP_cons] at ih ⊢
    have mono : used.countP (fun k => (idx k).any fun j => decide (c + 1 ≤ j)) ≤
        used.countP (fun k => (idx k).any fun j => decide (c ≤ j)) := by
      apply List.countP_mono_left
      intro x _ hx
      rw [Option.any_eq_true] at hx ⊢
      obtain ⟨j, hj, hd⟩ := hx
      exact ⟨j, hj, by simp only [decide_eq_true_eq] at hd ⊢; omega⟩
    by_cases hk : k = seq c
    · subst hk
      simp only [hs.idx_seq, Option.any_some]
      have h1 : decide (c + 1 ≤ c) = false := by simp
      have h2 : decide (c ≤ c) = true := by simp
      rw [h1, h2]
      simp only [Bool.false_eq_true, if_false, if_true]
      omega
    · have hm : seq c ∈ used := by
        rcases List.mem_cons.1 h with e | e
        · exact absurd e.symm hk
        · exact e
      have := ih hm
      have hh : (if (idx k).any (fun j => decide (c + 1 ≤ j)) = true then 1 else 0) ≤
          (if (idx k).any (fun j => decide (c ≤ j)) = true then 1 else 0) := by
        split
        · rename_i hx
          rw [Option.any_eq_true] at hx
          obtain ⟨j, hj, hd⟩ := hx
          have : (idx k).any (fun j => decide (c ≤ j)) = true := by
            rw [Option.any_eq_true]
            exact ⟨j, hj, by simp only [decide_eq_true_eq] at hd ⊢; omega⟩
          rw [if_pos this]
          omega
        · omega
      omega

/-- The result of `next`. -/
inductive NextCase (ks : Keys Key) (seq : Nat → Key) (within : Nat → Bool) (b : Builder Key)
    (c : Nat) (r : Builder Key × Option (Option (Key × Nat))) : Prop where
  | found (m : Nat) (hm : c ≤ m) (hw : within m = true) (hfree : seq m ∉ b.used)
      (hskip : ∀ j, c ≤ j → j < m → within j = true ∧ seq j ∈ b.used)
      (e : r = ({ b with
        used := b.used ++ [seq m]
        lastKey := some (seq m)
        spawned := b.spawned + 1
        cmds := b.cmds ++ [(seq m, b.base + b.spawned)] },
        some (some (seq m, b.base + b.spawned))))
  | exhausted (m : Nat) (hm : c ≤ m) (hw : within m = false)
      (hskip : ∀ j, c ≤ j → j < m → within j = true ∧ seq j ∈ b.used)
      (e : r = ({ b with lastKey := cursorAt seq m }, some none))

theorem nextLoop_case {ks : Keys Key} {seq : Nat → Key} {idx within}
    (hs : SeqKeys ks seq idx within) : ∀ (fuel : Nat) (b : Builder Key) (c : Nat),
    b.lastKey = cursorAt seq c → ahead idx b.used c < fuel →
    NextCase ks seq within b c (b.nextLoop ks fuel) := by
  intro fuel
  induction fuel with
  | zero => intro b c _ h; omega
  | succ fuel ih =>
    intro b c hl hf
    unfold Builder.nextLoop
    rw [hl]
    cases hw : within c with
    | false =>
      rw [hs.next_out c hw]
      refine .exhausted c (Nat.le_refl c) hw (fun j h1 h2 => by omega) ?_
      have : b = { b with lastKey := cursorAt seq c } := by
        cases b; simp only [Builder.mk.injEq, and_true, true_and]; exact hl
      rw [← this]
    | true =>
      rw [hs.next_in c hw]
      simp only
      rcases outputFor_cases ks { b with lastKey := some (seq c) } (seq c) with
        ⟨hv, e⟩ | ⟨_, hk, e⟩ | ⟨hv, hk, e⟩
      · rw [hs.valid c hw] at hv; cases hv
      · rw [e]
        simp only
        have hk : seq c ∈ b.used := hk
        have := ahead_succ hs hk
        have hcase := ih { b with lastKey := some (seq c) } (c + 1) rfl (by
          show ahead idx b.used (c + 1) < fuel
          omega)
        cases hcase with
        | found m hm hwm hfree hskip e' =>
          refine .found m (by omega) hwm hfree ?_ e'
          intro j h1 h2
          by_cases hj : j = c
          · subst hj; exact ⟨hw, hk⟩
          · exact hskip j (by omega) h2
        | exhausted m hm hwm hskip e' =>
          refine .exhausted m (by omega) hwm ?_ e'
          intro j h1 h2
          by_cases hj : j = c
          · subst hj; exact ⟨hw, hk⟩
          · exact hskip j (by omega) h2
      · rw [e]
        exact .found c (Nat.le_refl c) hw hk (fun j h1 h2 => by omega) rfl

theorem next_case {ks : Keys Key} {seq : Nat → Key} {idx within}
    (hs : SeqKeys ks seq idx within) (b : Builder Key) (c : Nat)
    (hl : b.lastKey = cursorAt seq c) : NextCase ks seq within b c (b.next ks) :=
  nextLoop_case hs _ b c hl (by have := ahead_le idx b.used c; omega)

theorem call_cursor {ks : Keys Key} {seq : Nat → Key} {idx within}
    (hs : SeqKeys ks seq idx within) {b : Builder Key} (h : ∃ c, b.lastKey = cursorAt seq c)
    (call : Call Key) : ∃ c, (b.call ks call).1.lastKey = cursorAt seq c := by
  obtain ⟨c, hc⟩ := h
  cases call with
  | outputFor k =>
    rcases outputFor_cases ks b k with ⟨_, e⟩ | ⟨_, _, e⟩ | ⟨_, _, e⟩ <;>
      exact ⟨c, by simp only [Builder.call, e]; exact hc⟩
  | next =>
    cases next_case hs b c hc with
    | found m _ _ _ _ e => exact ⟨m + 1, by simp only [Builder.call, e]; rfl⟩
    | exhausted m _ _ _ e => exact ⟨m, by simp only [Builder.call, e]⟩

theorem calls_cursor {ks : Keys Key} {seq : Nat → Key} {idx within}
    (hs : SeqKeys ks seq idx within) (cs : List (Call Key)) : ∀ {b : Builder Key},
    (∃ c, b.lastKey = cursorAt seq c) → ∃ c, (b.calls ks cs).1.lastKey = cursorAt seq c := by
  induction cs with
  | nil => intro b h; exact h
  | cons c cs ih => intro b h; exact ih (call_cursor hs h c)

def listIdx : ListKey → Option Nat
  | .sequential n => some n
  | .remaining => none

def mapIdx : MapKey K → Option Nat
  | .sequential n => some n
  | _ => none

theorem list_seq : SeqKeys listKeys .sequential listIdx (fun _ => true) where
  idx_seq := fun _ => rfl
  next_in := fun c _ => by cases c <;> rfl
  next_out := fun c h => by cases h
  valid := fun _ _ => rfl

theorem map_seq : SeqKeys (mapKeys K) .sequential mapIdx (fun _ => true) where
  idx_seq := fun _ => rfl
  next_in := fun c _ => by cases c <;> rfl
  next_out := fun c h => by cases h
  valid := fun _ _ => rfl

theorem array_seq (n : Nat) :
    SeqKeys (arrayKeys n) .sequential listIdx (fun c => decide (c < n)) where
  idx_seq := fun _ => rfl
  next_in := fun c h => by
    cases c <;> simp_all [arrayKeys, cursorAt, listNext, arrayValid]
  next_out := fun c h => by
    cases c <;> simp_all [arrayKeys, cursorAt, listNext, arrayValid]
  valid := fun c h => h

/-! ### A refused call leaves no trace -/

/-- Two builders that differ in the position of iterations that are both at their end. -/
structure Alike (ks : Keys Key) (seq : Nat → Key) (within : Nat → Bool) (b b' : Builder Key) :
    Prop where
  used : b'.used = b.used
  base : b'.base = b.base
  spawned : b'.spawned = b.spawned
  cmds : b'.cmds = b.cmds
  done : ∃ c m, b.lastKey = cursorAt seq c ∧ c ≤ m ∧ within m = false ∧
    ∀ j, c ≤ j → j < m → within j = true ∧ seq j ∈ b.used
  done' : ∃ c m, b'.lastKey = cursorAt seq c ∧ c ≤ m ∧ within m = false ∧
    ∀ j, c ≤ j → j < m → within j = true ∧ seq j ∈ b.used

theorem next_done {ks : Keys Key} {seq : Nat → Key} {idx within}
    (hs : SeqKeys ks seq idx within) {b : Builder Key} {c m : Nat}
    (hl : b.lastKey = cursorAt seq c) (hcm : c ≤ m) (hw : within m = false)
    (hskip : ∀ j, c ≤ j → j < m → within j = true ∧ seq j ∈ b.used) :
    ∃ m', c ≤ m' ∧ within m' = false ∧ (∀ j, c ≤ j → j < m' → within j = true ∧ seq j ∈ b.used) ∧
      b.next ks = ({ b with lastKey := cursorAt seq m' }, some none) := by
  cases next_case hs b c hl with
  | found m' hm' hw' hfree hskip' e =>
    exfalso
    by_cases h : m' < m
    · exact hfree (hskip m' hm' h).2
    · by_cases h2 : m' = m
      · subst h2; rw [hw] at hw'; cases hw'
      · have := (hskip' m hcm (by omega)).1
        rw [hw] at this; cases this
  | exhausted m' hm' hw' hskip' e => exact ⟨m', hm', hw', hskip', e⟩

theorem Alike.call {ks : Keys Key} {seq : Nat → Key} {idx within}
    (hs : SeqKeys ks seq idx within) {b b' : Builder Key} (h : Alike ks seq within b b')
    (call : Call Key) : (b'.call ks call).2 = (b.call ks call).2 ∧
      Alike ks seq within (b.call ks call).1 (b'.call ks call).1 := by
  cases call with
  | outputFor k =>
    rcases outputFor_cases ks b k with ⟨hv, e⟩ | ⟨hv, hk, e⟩ | ⟨hv, hk, e⟩
    · rcases outputFor_cases ks b' k with ⟨_, e'⟩ | ⟨hv', _, _⟩ | ⟨hv', _, _⟩
      · simp only [Builder.call, e, e']; exact ⟨trivial, h⟩
      · rw [hv] at hv'; cases hv'
      · rw [hv] at hv'; cases hv'
    · rcases outputFor_cases ks b' k with ⟨hv', _⟩ | ⟨_, _, e'⟩ | ⟨_, hk', _⟩
      · rw [hv] at hv'; cases hv'
      · simp only [Builder.call, e, e']; exact ⟨trivial, h⟩
      · exact absurd (h.used ▸ hk) hk'
    · rcases outputFor_cases ks b' k with ⟨hv', _⟩ | ⟨_, hk', _⟩ | ⟨_, _, e'⟩
      · rw [hv] at hv'; cases hv'
      · exact absurd (h.used ▸ hk') hk
      · simp only [Builder.call, e, e', h.base, h.spawned, h.used, h.cmds, true_and]
        refine ⟨rfl, rfl, rfl, rfl, ?_, ?_⟩
        · obtain ⟨c, m, h1, h2, h3, h4⟩ := h.done
          exact ⟨c, m, h1, h2, h3, fun j a b => ⟨(h4 j a b).1, List.mem_append_left _ (h4 j a b).2⟩⟩
        · obtain ⟨c, m, h1, h2, h3, h4⟩ := h.done'
          exact ⟨c, m, h1, h2, h3, fun j a b => ⟨(h4 j a b).1, List.mem_append_left _ (h4 j a b).2⟩⟩
  | next =>
    obtain ⟨c, m, h1, h2, h3, h4⟩ := h.done
    obtain ⟨c', m', h1', h2', h3', h4'⟩ := h.done'
    obtain ⟨x, x1, x2, x3, x4⟩ := next_done hs h1 h2 h3 h4
    obtain ⟨y, y1, y2, y3, y4⟩ := next_done (b := b') hs h1' h2' h3'
      (fun j a b => ⟨(h4' j a b).1, by rw [h.used]; exact (h4' j a b).2⟩)
    simp only [Builder.call, x4, y4, true_and]
    exact ⟨h.used, h.base, h.spawned, h.cmds,
      ⟨x, x, rfl, Nat.le_refl x, x2, fun j a b => by omega⟩,
      ⟨y, y, rfl, Nat.le_refl y, y2, fun j a b => by omega⟩⟩

theorem Alike.calls {ks : Keys Key} {seq : Nat → Key} {idx within}
    (hs : SeqKeys ks seq idx within) (cs : List (Call Key)) : ∀ {b b' : Builder Key},
    Alike ks seq within b b' → (b'.calls ks cs).2 = (b.calls ks cs).2 ∧
      (b'.calls ks cs).1.cmds = (b.calls ks cs).1.cmds := by
  induction cs with
  | nil => intro b b' h; exact ⟨rfl, h.cmds⟩
  | cons c cs ih =>
    intro b b' h
    have h1 := h.call hs c
    have h2 := ih h1.2
    simp only [Builder.calls]
    exact ⟨by rw [h1.1, h2.1], h2.2⟩

end Verif.Split
