import Verif.Zenoh.PublishLemmas

/-
C107: a publisher publishes what it is given.
C108: every message that is given to a publisher is answered once, and rightly.
-/
set_option linter.unusedSimpArgs false

namespace Verif.Zenoh.Publish

variable {M B E : Type} (enc : M → Except String B)

/-! ### C107 -/

theorem encodables_append (l l' : List M) :
    ∃ k, encodables enc (l ++ l') = encodables enc l ++ k := by
  unfold encodables
  rw [List.zipIdx_append, List.filterMap_append]
  exact ⟨_, rfl⟩

/-- What holds of a node with strict ordering. `k` is how many items the job has taken. -/
structure Strict (s : St M B E) : Prop where
  ordering : s.ordering = .strict
  encoding : s.encoding = []
  pre : starts s.log <+: encodables enc s.arrived
  at_work : s.alive = true → ∃ k, k ≤ s.arrived.length ∧
    s.queue = (s.arrived.zipIdx.drop k).map (fun x => (.unencoded x.1, x.2)) ∧
    (s.publisher = none → k = 0) ∧
    (s.publisher = some (.ok ()) → starts s.log = encodables enc (s.arrived.take k)) ∧
    (s.publisher ≠ some (.ok ()) → starts s.log = [])

theorem Strict.step {s : St M B E} (h : Strict enc s) (v : Ev M E) :
    Strict enc (step enc s v) := by
  cases v with
  | arrive m =>
    simp only [Publish.step, St.arrive, h.ordering, St.send, St.answer]
    have hpre : starts s.log <+: encodables enc (s.arrived ++ [m]) := by
      obtain ⟨k, hk⟩ := encodables_append enc s.arrived [m]
      obtain ⟨r, hr⟩ := h.pre
      exact ⟨r ++ k, by rw [← List.append_assoc, hr, hk]⟩
    cases ha : s.alive with
    | true =>
      simp only [if_true]
      refine ⟨rfl, h.encoding, hpre, fun _ => ?_⟩
      obtain ⟨k, h1, h2, h3, h4, h5⟩ := h.at_work ha
      refine ⟨k, by simp only [List.length_append]; omega, ?_, h3, ?_, h5⟩
      · simp only
        rw [List.zipIdx_append, List.drop_append_of_le_length (by simpa using h1), List.map_append,
          ← h2]
        simp
      · intro hp
        simp only
        rw [List.take_append_of_le_length h1]
        exact h4 hp
    | false =>
      simp only [Bool.false_eq_true, if_false]
      exact ⟨rfl, h.encoding, hpre, nofun⟩
  | encode t =>
    simp only [Publish.step, St.encode, h.encoding, List.find?_nil]
    exact h
  | abandon t =>
    simp only [Publish.step, h.encoding, List.find?_nil]
    exact h
  | created r =>
    simp only [Publish.step]
    split
    · rename_i hc
      simp only [Bool.and_eq_true, Option.isNone_iff_eq_none] at hc
      refine ⟨h.ordering, h.encoding, h.pre, fun _ => ?_⟩
      obtain ⟨k, h1, h2, h3, h4, h5⟩ := h.at_work hc.1
      have h6 := h3 hc.2
      subst h6
      have h7 := h5 (by rw [hc.2]; nofun)
      exact ⟨0, h1, h2, fun _ => rfl, fun _ => h7, fun _ => h7⟩
    · exact h
  | take =>
    simp only [Publish.step, St.take]
    split
    · rename_i hc
      simp only [Bool.and_eq_true, Option.isNone_iff_eq_none] at hc
      obtain ⟨k, h1, h2, h3, h4, h5⟩ := h.at_work hc.1
      split
      · exact h
      · exact h
      · rename_i e p t rest hp hq
        rw [hq] at h2
        have hk : k < s.arrived.length := by
          by_cases hk : k < s.arrived.length
          · exact hk
          · rw [List.drop_eq_nil_of_le (by simp; omega)] at h2
            cases h2
        rw [List.drop_eq_getElem_cons (by simpa using hk)] at h2
        simp only [List.map_cons, List.cons.injEq] at h2
        refine ⟨h.ordering, h.encoding, h.pre, fun _ => ⟨k + 1, hk, h2.2, ?_, ?_, h5⟩⟩
        · intro hn; simp only [St.answer] at hn; rw [hp] at hn; cases hn
        · intro hn; simp only [St.answer] at hn; rw [hp] at hn; cases hn
      · rename_i p t rest hp hq
        rw [hq] at h2
        have hk : k < s.arrived.length := by
          by_cases hk : k < s.arrived.length
          · exact hk
          · rw [List.drop_eq_nil_of_le (by simp; omega)] at h2
            cases h2
        rw [List.drop_eq_getElem_cons (by simpa using hk)] at h2
        simp only [List.map_cons, List.cons.injEq, Prod.mk.injEq, List.getElem_zipIdx,
          Nat.zero_add] at h2
        obtain ⟨⟨hpk, htk⟩, hrest⟩ := h2
        subst hpk
        subst htk
        have htake : encodables enc (s.arrived.take (t + 1)) = encodables enc (s.arrived.take t) ++
            (match enc s.arrived[t] with
              | .ok b => [(t, b)]
              | .error _ => []) := by
          rw [List.take_succ_eq_append_getElem hk]
          unfold encodables
          rw [List.zipIdx_append, List.filterMap_append]
          congr 1
          simp only [List.zipIdx_cons, List.zipIdx_nil, List.length_take, Nat.zero_add,
            Nat.min_eq_left (Nat.le_of_lt hk), List.filterMap_cons, List.filterMap_nil]
          cases enc s.arrived[t] <;> rfl
        have hpref : ∀ n, encodables enc (s.arrived.take n) <+: encodables enc s.arrived := by
          intro n
          obtain ⟨r, hr⟩ := encodables_append enc (s.arrived.take n) (s.arrived.drop n)
          rw [List.take_append_drop] at hr
          exact ⟨r, hr.symm⟩
        simp only [Payload.encode]
        cases he : enc s.arrived[t] with
        | error e =>
          simp only [St.answer]
          rw [he] at htake
          refine ⟨h.ordering, h.encoding, h.pre, fun _ => ⟨t + 1, hk, hrest, ?_, ?_, h5⟩⟩
          · intro hn; simp only at hn; rw [hp] at hn; cases hn
          · intro hn
            simp only at hn ⊢
            rw [h4 hn, htake]; simp
        | ok b =>
          simp only
          rw [he] at htake
          have hs : starts (s.log ++ [.start t b]) = encodables enc (s.arrived.take (t + 1)) := by
            rw [starts_append, h4 hp, htake]; rfl
          refine ⟨h.ordering, h.encoding, ?_, fun _ => ⟨t + 1, hk, hrest, ?_, fun _ => hs, ?_⟩⟩
          · simp only; rw [hs]; exact hpref _
          · intro hn; simp only at hn; rw [hp] at hn; cases hn
          · intro hn; exact absurd hp hn
    · exact h
  | finished r =>
    simp only [Publish.step, St.finished]
    split
    · exact h
    · rename_i t _
      have hs : starts (s.log ++ [.finish t r]) = starts s.log := by
        rw [starts_append]; simp [starts]
      refine ⟨h.ordering, h.encoding, ?_, ?_⟩
      · simp only [St.answer]; rw [hs]; exact h.pre
      · simp only [St.answer]; rw [hs]; exact h.at_work
  | drop =>
    exact ⟨h.ordering, h.encoding, h.pre, nofun⟩

theorem strict_run (vs : List (Ev M E)) :
    Strict enc (run enc (St.init .strict : St M B E) vs) := by
  have h0 : Strict enc (St.init .strict : St M B E) :=
    ⟨rfl, rfl, ⟨_, rfl⟩, fun _ => ⟨0, Nat.le_refl _, rfl, fun _ => rfl, fun _ => rfl, fun _ => rfl⟩⟩
  revert h0
  generalize (St.init .strict : St M B E) = s
  induction vs generalizing s with
  | nil => exact id
  | cons v vs ih => exact fun h => ih _ (h.step enc v)

/-- **C107**, strict ordering: messages are published in the order in which they arrived, without a
gap (but for those that cannot be encoded), each once. -/
theorem C107_order (vs : List (Ev M E)) :
    let s := run enc (St.init .strict : St M B E) vs
    starts s.log <+: encodables enc s.arrived := (strict_run enc vs).pre

/-- **C107**, strict ordering: when the channel is empty and the publisher is there, everything
that can be encoded has been published. -/
theorem C107_strict_all (vs : List (Ev M E)) :
    let s := run enc (St.init .strict : St M B E) vs
    s.alive = true → s.publisher = some (.ok ()) → s.queue = [] →
    starts s.log = encodables enc s.arrived := by
  intro s ha hp hq
  obtain ⟨k, h1, h2, _, h4, _⟩ := (strict_run enc vs).at_work ha
  rw [h4 hp]
  have h1' : k ≤ s.arrived.length := h1
  have : k = s.arrived.length := by
    have h3 : s.queue.length = (s.arrived.zipIdx.drop k).length := by
      have := congrArg List.length h2
      simpa using this
    rw [hq] at h3
    simp at h3
    omega
  rw [this]
  show encodables enc (s.arrived.take s.arrived.length) = _
  rw [List.take_length]

/-- **C107**, any ordering: nothing else is published than what arrived, encoded, and nothing
twice. -/
theorem C107_once (o : Ordering) (vs : List (Ev M E)) :
    let s := run enc (St.init o : St M B E) vs
    (∀ x ∈ starts s.log, ∃ m, s.arrived[x.1]? = some m ∧ enc m = .ok x.2) ∧
    ∀ t, ((starts s.log).map (·.1)).count t ≤ 1 := by
  intro s
  have h : Inv enc s := (Inv.init enc o).run vs
  refine ⟨h.begun, fun t => ?_⟩
  have h1 := h.once t
  have h2 := h.sum t
  unfold tally at h2
  split at h2 <;> omega

/-- **C107**, any ordering: when all is done everything that can be encoded has been published,
but for the messages whose sessions were cleaned up before they were encoded. -/
theorem C107_all (o : Ordering) (vs : List (Ev M E)) :
    let s := run enc (St.init o : St M B E) vs
    s.alive = true → s.publisher = some (.ok ()) → Quiet s →
    ∀ (t : Nat) (m : M) (b : B), s.arrived[t]? = some m → enc m = .ok b → t ∉ s.lost →
      (t, b) ∈ starts s.log := by
  intro s ha hp hq t m b hm he hl
  have h : Inv enc s := (Inv.init enc o).run vs
  have h2 := h.sum t
  unfold tally at h2
  rw [hq.1, hq.2.1, hq.2.2, if_pos (List.getElem?_eq_some_iff.1 hm).1,
    List.count_eq_zero_of_not_mem hl] at h2
  simp only [List.map_nil, List.count_nil, Option.toList_none, Nat.zero_add, Nat.add_zero] at h2
  have h3 : t ∈ s.answers.map (·.1) := List.count_pos_iff.1 (by omega)
  obtain ⟨x, hx, hxt⟩ := List.mem_map.1 h3
  subst hxt
  refine h.put hp x hx ?_ m b hm he
  intro hd
  obtain ⟨m', _, hr⟩ := h.right x hx
  rw [hd] at hr
  simp only [RightAnswer, ha] at hr
  cases hr

/-- **C107**: one put ends before the next one begins. -/
theorem C107_apart (o : Ordering) (vs : List (Ev M E)) :
    Apart (run enc (St.init o : St M B E) vs).log := ((Inv.init enc o).run vs).apart

/-! ### C108 -/

/-- **C108**: no message is answered twice. -/
theorem C108_once (o : Ordering) (vs : List (Ev M E)) (t : Nat) :
    ((run enc (St.init o : St M B E) vs).answers.map (·.1)).count t ≤ 1 := by
  have h2 := ((Inv.init (E := E) enc o).run vs).sum t
  unfold tally at h2
  split at h2 <;> omega

/-- **C108**: when all is done every message has been answered, unless its session was cleaned up;
this holds too if the publisher could not be created or has gone. -/
theorem C108_all (o : Ordering) (vs : List (Ev M E)) :
    let s := run enc (St.init o : St M B E) vs
    Quiet s → ∀ t, t < s.arrived.length → t ∉ s.lost → ∃ r, (t, r) ∈ s.answers := by
  intro s hq t ht hl
  have h2 := ((Inv.init (E := E) enc o).run vs).sum t
  unfold tally at h2
  rw [show (run enc (St.init o) vs) = s from rfl, hq.1, hq.2.1, hq.2.2, if_pos ht,
    List.count_eq_zero_of_not_mem hl] at h2
  simp only [List.map_nil, List.count_nil, Option.toList_none, Nat.zero_add, Nat.add_zero] at h2
  have h3 : t ∈ s.answers.map (·.1) := List.count_pos_iff.1 (by omega)
  obtain ⟨x, hx, hxt⟩ := List.mem_map.1 h3
  exact ⟨x.2, by rw [← hxt]; exact hx⟩

/-- **C108**: an answer tells what happened to the message. -/
theorem C108_right (o : Ordering) (vs : List (Ev M E)) :
    let s := run enc (St.init o : St M B E) vs
    ∀ t r, (t, r) ∈ s.answers → ∃ m, s.arrived[t]? = some m ∧ RightAnswer enc s t m r := by
  intro s t r h
  exact ((Inv.init enc o).run vs).right (t, r) h

/-- **C108**: a message whose put has succeeded is answered with success. -/
theorem C108_success (o : Ordering) (vs : List (Ev M E)) (t : Nat) :
    let s := run enc (St.init o : St M B E) vs
    .finish t (.ok ()) ∈ s.log → (t, .ok ()) ∈ s.answers := by
  intro s h
  obtain ⟨r, h1, h2⟩ := ((Inv.init enc o).run vs).done t _ h
  rw [← h2 rfl]; exact h1

/-! ### Examples -/

/-- Odd numbers cannot be encoded. -/
def evens (n : Nat) : Except String Nat :=
  if n % 2 = 0 then .ok (n / 2) else .error "odd"

def strictEvs : List (Ev Nat String) :=
  [.arrive 4, .take, .created (.ok ()), .arrive 7, .take, .arrive 6, .finished (.ok ()), .take,
   .take, .finished (.error "lost"), .arrive 8]

def looseEvs : List (Ev Nat String) :=
  [.created (.ok ()), .arrive 4, .arrive 7, .arrive 6, .arrive 8, .encode 2, .take, .abandon 3,
   .encode 0, .encode 1, .finished (.ok ()), .take, .finished (.ok ())]

/-- Strict: 4 and 6 were put, in order; 7 is answered with its error; 8 is waiting. -/
example :
    let s := run evens (St.init .strict : St Nat Nat String) strictEvs
    starts s.log = [(0, 2), (2, 3)] ∧ s.alive = true ∧ s.publisher = some (.ok ()) ∧
    s.answers = [(0, .ok ()), (1, .error (.encoding "odd")), (2, .error (.zenoh "lost"))] ∧
    s.queue = [(.unencoded 8, 3)] ∧ encodables evens s.arrived = [(0, 2), (2, 3), (3, 4)] :=
  ⟨rfl, rfl, rfl, rfl, rfl, rfl⟩

/-- Loose: 6 overtakes 4; 8 is lost because its session has ended; all is done. -/
example :
    let s := run evens (St.init .loose : St Nat Nat String) looseEvs
    starts s.log = [(2, 3), (0, 2)] ∧ Quiet s ∧ s.alive = true ∧ s.publisher = some (.ok ()) ∧
    s.lost = [3] ∧
    s.answers = [(1, .error (.encoding "odd")), (2, .ok ()), (0, .ok ())] :=
  ⟨rfl, ⟨rfl, rfl, rfl⟩, rfl, rfl, rfl, rfl⟩

/-- The job is dropped while a put is going on and another message is waiting. -/
example :
    let s := run evens (St.init .strict : St Nat Nat String)
      [.created (.ok ()), .arrive 4, .arrive 6, .take, .drop, .arrive 8]
    Quiet s ∧ s.answers = [(0, .error .dropped), (1, .error .dropped), (2, .error .dropped)] :=
  ⟨⟨rfl, rfl, rfl⟩, rfl⟩

/-- The publisher cannot be created. -/
example :
    let s := run evens (St.init .strict : St Nat Nat String)
      [.arrive 4, .created (.error "no session"), .take]
    Quiet s ∧ s.answers = [(0, .error (.zenoh "no session"))] ∧ starts s.log = [] :=
  ⟨⟨rfl, rfl, rfl⟩, rfl, rfl⟩

end Verif.Zenoh.Publish
