import Verif.Keys.Recheck

/-
C47. For a session, an accessor reports its buffer as still in use exactly while some key
handed out for that session is alive; when the last key goes away a disposal is issued once so
that waiting operations re-check.
-/
namespace Verif.Keys

/-- The usage check of an operation over one buffer says "in use" exactly while somebody holds
a key of the session, or a thread is in the middle of dropping one. What is missing: this is
false with more buffers, `C47_multi_violated`. -/
theorem C47_usage_partial (b : Nat) (ops : List Op) (s : Nat) (hs : NoEnd s ops) :
    (run [b] ops).usage s = true ↔ Held [b] ops s ∨ BeingDropped (run [b] ops) s :=
  usage_one (run_inv [b] ops).1 ((run_inv [b] ops).2 s hs)

/-- When every drop is one step the usage check is exact. Same restriction to one buffer. -/
theorem C47_usage_atomic_partial (b : Nat) (acts : List Act) (s : Nat)
    (hs : NoEnd s (acts.flatMap Act.ops)) :
    (run [b] (acts.flatMap Act.ops)).usage s = true ↔ Held [b] (acts.flatMap Act.ops) s := by
  rw [C47_usage_partial b _ s hs]
  constructor
  · rintro (h | ⟨L, hL, _, hd⟩)
    · exact h
    · have := (acts_told b s acts {} [] (inv_init 1) (by intro L hL; cases hL)
        (by intro L hL; cases hL) (noEnd_acts hs) (by rintro ⟨ids, hm⟩; cases hm)).1 L hL
      rw [this] at hd; cases hd
  · exact .inl

/-- The drop of a key sends a notice for its session and buffer if and only if nobody holds
another clone of it, and then exactly one; any number of buffers. -/
theorem C47_disposal (buffers : List Nat) (hb : buffers ≠ []) (ops : List Op) (l s : Nat)
    (hs : NoEnd s ops) (hh : (l, s) ∈ hands buffers ops) :
    ∃ L, (run buffers ops).lives[l]? = some L ∧ L.session = s ∧
      ((∃ p, p ∈ hands buffers (ops ++ [.drop l]) ∧ p.1 = l) →
        (run buffers (ops ++ [.drop l])).channel = (run buffers ops).channel) ∧
      ((∀ p, p ∈ hands buffers (ops ++ [.drop l]) → p.1 ≠ l) →
        (run buffers (ops ++ [.drop l])).channel =
          (run buffers ops).channel ++ [(s, L.buffer)]) := by
  obtain ⟨i, o⟩ := run_inv buffers ops
  obtain ⟨L, hL, hLs, hch⟩ := drop_channel i (by
    intro h0; exact hb (List.eq_nil_of_length_eq_zero h0)) hh (o s hs)
  refine ⟨L, hL, hLs, ?_, ?_⟩
  · rintro ⟨p, hp, hpl⟩
    rw [hands_append] at hp
    have : ((hands buffers ops).eraseP fun p => decide (p.1 = l)).any
        (fun p => decide (p.1 = l)) = true := by
      rw [List.any_eq_true]; exact ⟨p, hp, by simpa using hpl⟩
    rw [run_append]
    show ((run buffers ops).drop l).channel = _
    rw [hch, this]
    simp
  · intro hno
    rw [hands_append] at hno
    have : ((hands buffers ops).eraseP fun p => decide (p.1 = l)).any
        (fun p => decide (p.1 = l)) = false := by
      rw [List.any_eq_false]; intro p hp; simpa using hno p hp
    rw [run_append]
    show ((run buffers ops).drop l).channel = _
    rw [hch, this]
    simp

/-- Nothing but the drop of a held key or the end of a session sends a notice, and the end of
a session sends notices for that session only. -/
theorem C47_disposal_only (buffers : List Nat) (ops : List Op) (op : Op) :
    ∃ old new, (run buffers (ops ++ [op])).channel = old ++ new ∧
      (old = (run buffers ops).channel ∨ op = .receive ∧ ∃ m, m :: old = (run buffers ops).channel) ∧
      (new = [] ∨ (∃ l p, op = .drop l ∧ p ∈ hands buffers ops ∧ p.1 = l) ∨
        ∃ s, op = .cleanup s true ∧ ∀ m, m ∈ new → m.1 = s) := by
  obtain ⟨i, _⟩ := run_inv buffers ops
  rw [run_append]
  show ∃ old new, ((run buffers ops).step buffers op).channel = old ++ new ∧ _
  have none : ((run buffers ops).step buffers op).channel = (run buffers ops).channel →
      ∃ old new, ((run buffers ops).step buffers op).channel = old ++ new ∧
      (old = (run buffers ops).channel ∨ op = .receive ∧ ∃ m, m :: old = (run buffers ops).channel) ∧
      (new = [] ∨ (∃ l p, op = .drop l ∧ p ∈ hands buffers ops ∧ p.1 = l) ∨
        ∃ s, op = .cleanup s true ∧ ∀ m, m ∈ new → m.1 = s) := fun h =>
    ⟨_, [], by rw [h, List.append_nil], .inl rfl, .inl rfl⟩
  cases op with
  | access s => exact none (access_inv buffers i s).2.2.2.2.1
  | clone l => exact none (clone_other _ l).2.1
  | finish l => exact none (finish_other _ l).2.1
  | drop l =>
    by_cases hh : ∃ p, p ∈ hands buffers ops ∧ p.1 = l
    · obtain ⟨p, hp, hpl⟩ := hh
      obtain ⟨c, hc⟩ := (drop_other (run buffers ops) l).2.1
      exact ⟨_, c, hc, .inl rfl, .inr (.inl ⟨l, p, rfl, hp, hpl⟩)⟩
    · refine none ?_
      show ((run buffers ops).drop l).channel = _
      rw [drop_none i fun p hp e => hh ⟨p, hp, e⟩]
  | cleanup s b =>
    obtain ⟨c, hc, hm⟩ := (cleanup_inv i s b).2.2.2.2
    cases b with
    | true => exact ⟨_, c, hc, .inl rfl, .inr (.inr ⟨s, rfl, fun m hm' => (hm m hm').1⟩)⟩
    | false =>
      refine none ?_
      show ((run buffers ops).cleanup s false).channel = _
      rfl
  | receive =>
    cases hch : (run buffers ops).channel with
    | nil =>
      refine ⟨[], [], ?_, .inl rfl, .inl rfl⟩
      show ((run buffers ops).receive).channel = _
      simp [State.receive, hch]
    | cons m rest =>
      refine ⟨rest, [], ?_, .inr ⟨rfl, m, rfl⟩, .inl rfl⟩
      show ((run buffers ops).receive).channel = _
      simp [State.receive, hch]

/-- If keys of the session were handed out and nobody holds one any more, then a notice for
the session is waiting, or the last one received found the session not in use. What is
missing: drops that are interrupted by the reception (`C47_race_violated`) and more buffers
(`C47_multi_violated`). -/
theorem C47_recheck_partial (b : Nat) (acts : List Act) (s : Nat)
    (hs : NoEnd s (acts.flatMap Act.ops)) (ha : Act.access s ∈ acts)
    (hno : ¬ Held [b] (acts.flatMap Act.ops) s) :
    (∃ m, m ∈ (run [b] (acts.flatMap Act.ops)).channel ∧ m.1 = s) ∨
      lastSeen (run [b] (acts.flatMap Act.ops)) s = some false := by
  have := (acts_told b s acts {} [] (inv_init 1) (by intro L hL; cases hL)
    (by intro L hL; cases hL) (noEnd_acts hs) (by rintro ⟨ids, hm⟩; cases hm)).2
    (stored_of_access [b] _ hs (by
      rw [List.mem_flatMap]; exact ⟨_, ha, by simp [Act.ops]⟩)) hno
  rcases this with ⟨c, hc⟩ | h
  · exact .inl ⟨_, hc, rfl⟩
  · exact .inr h

/-- The notice is sent before the tracker lets go: if it is received in between, the check
still finds the session in use, and no further notice comes although it no longer is. -/
theorem C47_race_violated :
    let ops : List Op := [.access 7, .drop 1, .receive, .finish 1]
    ¬ Held [3] ops 7 ∧ (run [3] ops).usage 7 = false ∧ (run [3] ops).channel = [] ∧
      lastSeen (run [3] ops) 7 = some true := by
  refine ⟨?_, by decide, by decide, by decide⟩
  rintro ⟨p, hp, _⟩
  have : hands [3] [.access 7, .drop 1, .receive, .finish 1] = [] := by decide
  rw [this] at hp
  cases hp

/-- With two or more buffers the parts of the stored key share one tracker, so the session
counts as in use from the first access on until the session ends, whoever holds keys. -/
theorem C47_multi_violated (buffers : List Nat) (hb : 2 ≤ buffers.length) (ops : List Op)
    (s : Nat) (hs : NoEnd s ops) (ha : Op.access s ∈ ops) : (run buffers ops).usage s = true := by
  obtain ⟨i, _⟩ := run_inv buffers ops
  obtain ⟨ids, hm⟩ := stored_of_access buffers ops hs ha
  obtain ⟨t, hk⟩ := i.kept _ hm
  rw [usage_eq i hm hk]
  have := count_split i hk
  simp
  exact ⟨by intro h0; simp [h0] at hb, by omega⟩

/-! Examples. -/

/-- Two clones of a key and another key of the same session; two keys are dropped. -/
def sample : List Op := [.access 7, .clone 1, .access 7, .drop 1, .drop 2]

example : NoEnd 7 sample ∧ Held [3] sample 7 ∧ BeingDropped (run [3] sample) 7 ∧
    (run [3] sample).usage 7 = true :=
  ⟨by unfold NoEnd sample; decide, ⟨(1, 7), by decide, rfl⟩,
    ⟨⟨7, 3, 0, 0, true, false⟩, by decide, rfl, rfl⟩, by decide⟩

/-- A session in which the keys are gone. -/
def sampleActs : List Act := [.access 7, .access 8, .clone 1, .drop 1, .drop 1, .receive]

example : NoEnd 7 (sampleActs.flatMap Act.ops) ∧ Act.access 7 ∈ sampleActs ∧
    hands [3] (sampleActs.flatMap Act.ops) = [(3, 8)] ∧
    (run [3] (sampleActs.flatMap Act.ops)).usage 7 = false ∧
    (run [3] (sampleActs.flatMap Act.ops)).usage 8 = true ∧
    lastSeen (run [3] (sampleActs.flatMap Act.ops)) 7 = some false :=
  ⟨by unfold NoEnd sampleActs; decide, by decide, by decide, by decide, by decide, by decide⟩

/-- Both outcomes of a drop, with two buffers. -/
example : (2, 7) ∈ hands [3, 4] [.access 7, .clone 2] ∧
    (run [3, 4] [.access 7, .clone 2, .drop 2]).channel = [] ∧
    (run [3, 4] [.access 7, .clone 2, .drop 2, .drop 2]).channel = [(7, 3)] := by decide

/-- Nobody holds a key of two buffers, yet the session counts as in use. -/
example : NoEnd 7 [.access 7, .drop 2, .finish 2, .drop 3, .finish 3] ∧
    hands [3, 4] [.access 7, .drop 2, .finish 2, .drop 3, .finish 3] = [] ∧
    (run [3, 4] [.access 7, .drop 2, .finish 2, .drop 3, .finish 3]).usage 7 = true :=
  ⟨by unfold NoEnd; decide, by decide, by decide⟩

end Verif.Keys
