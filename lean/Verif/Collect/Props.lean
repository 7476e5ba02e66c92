import Verif.Collect.Spec

/-
Property theorems C19 and C20. `run c es`: a collect node that was set up with any bounds,
after any sequence of inputs, disposals and cleanups of any sessions, with any answers to
the question whether more inputs may arrive.
-/
namespace Verif.Collect

set_option linter.unusedSimpArgs false

variable {α : Type}

/-- The bounds are valid, and no collection is full. -/
structure Inv (c : Coll α) : Prop where
  bounds : ∀ m, c.max = some m → 0 < m ∧ c.min ≤ m
  room : ∀ m, c.max = some m → ∀ s, (c.map s).length < m

theorem setup_inv {min : Nat} {max : Option Nat} {c : Coll α} (h : Coll.setup min max = some c) :
    Inv c ∧ c.min = min ∧ c.max = max ∧ c.log = [] ∧ ∀ s, c.map s = [] := by
  unfold Coll.setup at h
  split at h
  · cases h
    exact ⟨⟨by simp, by simp⟩, rfl, rfl, rfl, fun _ => rfl⟩
  · split at h
    · rename_i m hm
      cases h
      refine ⟨⟨?_, ?_⟩, rfl, rfl, rfl, fun _ => rfl⟩
      · intro m' h; cases h; exact hm
      · intro m' h s; cases h; exact hm.1
    · cases h

/-- The cases of one event. -/
inductive Case (c : Coll α) (e : Ev α) (c' : Coll α) : Prop where
  | sent (h : c' = { c with
      map := fun s => if s = e.session then [] else c.map s
      log := c.log ++ [.sent e.session (pendingAfterArrival (c.map e.session) e)] })
    (hb : (e.Exhausts ∧ c.min ≤ (pendingAfterArrival (c.map e.session) e).length) ∨
      ∃ m s d a, e = .input s d a ∧ c.max = some m ∧
        m ≤ (pendingAfterArrival (c.map e.session) e).length)
    (hs : ∀ s, e ≠ .cleanup s)
  | deficient (h : c' = { c with
      map := fun s => if s = e.session then pendingAfterArrival (c.map e.session) e else c.map s
      log := c.log ++ [.deficient e.session (pendingAfterArrival (c.map e.session) e).length] })
    (hb : (pendingAfterArrival (c.map e.session) e).length < c.min) (he : e.Exhausts)
    (hm : ∀ m, c.max = some m → ∀ s d a, e = .input s d a →
      (pendingAfterArrival (c.map e.session) e).length < m)
  | cleaned (h : c' = { c with
      map := fun s => if s = e.session then [] else c.map s
      log := c.log ++ [.cleaned e.session (c.map e.session)] }) (he : e = .cleanup e.session)
  | pending (h : c' = { c with
      map := fun s => if s = e.session then pendingAfterArrival (c.map e.session) e else c.map s })
    (he : e.Open) (hs : ∀ s, e ≠ .cleanup s)
    (hm : ∀ m, c.max = some m → ∀ s d a, e = .input s d a →
      (pendingAfterArrival (c.map e.session) e).length < m)

theorem put_same (c : Coll α) (s : Nat) :
    c = { c with map := fun s' => if s' = s then c.map s else c.map s' } := by
  have : (fun s' => if s' = s then c.map s else c.map s') = c.map := by
    funext s'
    split
    · rename_i h; rw [h]
    · rfl
  rw [this]

theorem step_case (c : Coll α) (e : Ev α) : Case c e (step c e) := by
  cases e with
  | input session data active =>
    simp only [step, Coll.execute, Coll.put, if_true]
    split
    · rename_i h
      rw [Option.any_eq_true] at h
      obtain ⟨m, hm, hl⟩ := h
      refine .sent ?_ (.inr ⟨m, session, data, active, rfl, hm,
        of_decide_eq_true hl⟩) (by simp)
      simp only [Coll.send, Coll.put, if_true, Ev.session, pendingAfterArrival]
      congr 1
      funext s
      split <;> simp_all
    · rename_i h
      have hm : ∀ m, c.max = some m → ∀ s d a, Ev.input session data active = .input s d a →
          (pendingAfterArrival (c.map session) (Ev.input session data active)).length < m := by
        intro m hm s d a _
        rw [hm] at h
        simp only [Option.any_some, decide_eq_true_eq, ge_iff_le, Nat.not_le] at h
        exact h
      split
      · rename_i ha
        exact .pending rfl ha (by simp) hm
      · rename_i ha
        have ha' : active = false := by simpa using ha
        simp only [Coll.onUnreachable, if_true]
        split
        · rename_i hl
          exact .deficient rfl hl ha' hm
        · rename_i hl
          refine .sent ?_ (.inl ⟨ha', Nat.le_of_not_lt hl⟩) (by simp)
          simp only [Coll.send, Coll.put, if_true, Ev.session, pendingAfterArrival]
          congr 1
          funext s
          split <;> simp_all
  | disposal session own upstream active =>
    have hp : (own = true ∨ upstream = false ∨ active = true) → Case c (.disposal session own upstream active) c :=
      fun h => .pending (put_same c session) h (by simp) (by simp)
    simp only [step]
    split
    · rename_i h; exact hp (.inl h)
    · split
      · rename_i h; exact hp (.inr (.inl (by simpa using h)))
      · split
        · rename_i h; exact hp (.inr (.inr h))
        · rename_i h1 h2 h3
          have he : (Ev.disposal (α := α) session own upstream active).Exhausts :=
            ⟨by simpa using h1, by simpa using h2, by simpa using h3⟩
          simp only [Coll.onUnreachable]
          split
          · rename_i hl
            refine .deficient ?_ hl he (by simp)
            conv => lhs; rw [put_same c session]
            simp only [Ev.session, pendingAfterArrival, if_true]
            rfl
          · rename_i hl
            exact .sent rfl (.inl ⟨he, Nat.le_of_not_lt hl⟩) (by simp)
  | cleanup session => exact .cleaned rfl rfl

theorem step_bounds (c : Coll α) (e : Ev α) : (step c e).min = c.min ∧ (step c e).max = c.max := by
  cases step_case c e with
  | _ h => rw [h]; exact ⟨rfl, rfl⟩

theorem pending_room {c : Coll α} (h : Inv c) (e : Ev α) (m : Nat) (hm : c.max = some m) :
    (pendingAfterArrival (c.map e.session) e).length ≤ m := by
  have := h.room m hm e.session
  cases e <;> simp [pendingAfterArrival] <;> omega

theorem step_inv {c : Coll α} (h : Inv c) (e : Ev α) : Inv (step c e) := by
  have hb := step_bounds c e
  refine ⟨by rw [hb.1, hb.2]; exact h.bounds, ?_⟩
  rw [hb.2]
  intro m hm s
  have h0 := (h.bounds m hm).1
  have hroom := h.room m hm
  cases step_case c e with
  | sent hc _ _ | cleaned hc _ =>
    rw [hc]
    dsimp only
    split
    · exact h0
    · exact hroom s
  | deficient hc hl he hx | pending hc he hs hx =>
    rw [hc]
    dsimp only
    split
    · cases e with
      | input s' d a => exact hx m hm s' d a rfl
      | disposal s' _ _ _ => exact hroom _
      | cleanup s' => exact hroom _
    · exact hroom s

theorem run_inv (es : List (Ev α)) : ∀ {c : Coll α}, Inv c → Inv (run c es) ∧
    (run c es).min = c.min ∧ (run c es).max = c.max := by
  induction es with
  | nil => intro c h; exact ⟨h, rfl, rfl⟩
  | cons e es ih =>
    intro c h
    have := ih (step_inv h e)
    have hb := step_bounds c e
    exact ⟨this.1, this.2.1.trans hb.1, this.2.2.trans hb.2⟩

theorem run_append (es es' : List (Ev α)) : ∀ (c : Coll α), run c (es ++ es') = run (run c es) es' := by
  induction es with
  | nil => intro c; rfl
  | cons e es ih => intro c; exact ih _

/-- C19: every batch has at least `min` and at most `max` elements. -/
theorem C19_batch_size (min : Nat) (max : Option Nat) (c : Coll α)
    (hc : Coll.setup min max = some c) (es : List (Ev α)) (session : Nat) (batch : List α)
    (hb : Rec.sent session batch ∈ (run c es).log) :
    min ≤ batch.length ∧ ∀ m, max = some m → batch.length ≤ m := by
  obtain ⟨hinv, hmin, hmax, hlog, _⟩ := setup_inv hc
  have key : ∀ (es : List (Ev α)) (c : Coll α), Inv c → c.min = min → c.max = max →
      (∀ s b, Rec.sent s b ∈ c.log → min ≤ b.length ∧ ∀ m, max = some m → b.length ≤ m) →
      ∀ s b, Rec.sent s b ∈ (run c es).log →
        min ≤ b.length ∧ ∀ m, max = some m → b.length ≤ m := by
    intro es
    induction es with
    | nil => intro c _ _ _ h; exact h
    | cons e es ih =>
      intro c hinv hmin hmax h
      have hb := step_bounds c e
      refine ih _ (step_inv hinv e) (hb.1.trans hmin) (hb.2.trans hmax) ?_
      cases step_case c e with
      | sent hc hs _ =>
        rw [hc]
        intro s b hm
        rcases List.mem_append.mp hm with hm | hm
        · exact h s b hm
        · simp only [List.mem_singleton, Rec.sent.injEq] at hm
          rw [hm.2]
          refine ⟨?_, fun m hmm => pending_room hinv e m (hmax.trans hmm)⟩
          rcases hs with ⟨_, hl⟩ | ⟨m, _, _, _, _, hm', hl⟩
          · omega
          · have := (hinv.bounds m hm').2
            omega
      | deficient hc _ _ _ | cleaned hc _ =>
        rw [hc]
        intro s b hm
        rcases List.mem_append.mp hm with hm | hm
        · exact h s b hm
        · simp at hm
      | pending hc _ _ _ => rw [hc]; exact h
  exact key es c hinv hmin hmax (by rw [hlog]; simp) session batch hb

/-- C19: nothing is lost, invented, duplicated or reordered: the elements of all batches of a
session, of what cleanups dropped, and of what is still collected are the inputs of the
session, in order. -/
theorem C19_conservation (min : Nat) (max : Option Nat) (c : Coll α)
    (hc : Coll.setup min max = some c) (es : List (Ev α)) (session : Nat) :
    left session (run c es).log ++ (run c es).map session = arrived session es := by
  obtain ⟨_, _, _, hlog, hmap⟩ := setup_inv hc
  have key : ∀ (es : List (Ev α)) (c : Coll α),
      left session (run c es).log ++ (run c es).map session =
        left session c.log ++ c.map session ++ arrived session es := by
    intro es
    induction es with
    | nil => intro c; simp [run, arrived]
    | cons e es ih =>
      intro c
      rw [run, ih]
      have harr : arrived session (e :: es) = arrived session [e] ++ arrived session es := by
        rw [show e :: es = [e] ++ es from rfl]; simp only [arrived, List.filterMap_append]
      rw [harr, ← List.append_assoc]
      congr 1
      have hp : e.session = session →
          pendingAfterArrival (c.map e.session) e = c.map session ++ arrived session [e] := by
        intro h
        cases e <;> simp_all [pendingAfterArrival, arrived, Ev.session]
      have ha : e.session ≠ session → arrived session [e] = [] := by
        intro h
        cases e <;> simp_all [arrived, Ev.session]
      by_cases hs : e.session = session
      · cases step_case c e with
        | sent h _ _ =>
          rw [h]
          simp only [left, List.flatMap_append, List.flatMap_singleton, hs, if_true] at hp ⊢
          rw [hp trivial]
          simp
        | deficient h _ _ _ =>
          rw [h]
          simp only [left, List.flatMap_append, List.flatMap_singleton, hs, if_true] at hp ⊢
          rw [hp trivial]
          simp
        | cleaned h he =>
          rw [h]
          have : arrived session [e] = [] := by rw [he]; simp [arrived]
          simp only [left, List.flatMap_append, List.flatMap_singleton, hs, if_true, this]
          try simp
        | pending h _ _ _ =>
          rw [h]
          simp only [left, hs, if_true] at hp ⊢
          rw [hp trivial]
          simp
      · have hs' : ¬ session = e.session := fun h => hs h.symm
        rw [ha hs]
        cases step_case c e with
        | sent h _ _ | deficient h _ _ _ | cleaned h _ | pending h _ _ _ =>
          rw [h]
          simp [left, hs, hs']
  rw [key, hlog, hmap]
  simp [left]

/-- C19: while more inputs may arrive, only full batches are emitted: if an event is not the
news that the inputs of its session are exhausted and a batch is emitted, it has exactly
`max` elements. -/
theorem C19_full_while_open (min : Nat) (max : Option Nat) (c : Coll α)
    (hc : Coll.setup min max = some c) (es : List (Ev α)) (e : Ev α) (he : e.Open)
    (session : Nat) (batch : List α)
    (hb : (run c (es ++ [e])).log = (run c es).log ++ [.sent session batch]) :
    max = some batch.length := by
  obtain ⟨hinv, hmin, hmax, _, _⟩ := setup_inv hc
  obtain ⟨hinv, _, hmax'⟩ := run_inv es hinv
  rw [run_append] at hb
  simp only [run] at hb
  generalize run c es = c1 at *
  cases step_case c1 e with
  | sent h hs _ =>
    rw [h] at hb
    simp only [List.append_cancel_left_eq, List.cons.injEq, Rec.sent.injEq, and_true] at hb
    rcases hs with ⟨hx, _⟩ | ⟨m, _, _, _, _, hm, hl⟩
    · exfalso
      cases e with
      | input s d a => simp only [Ev.Open] at he; simp only [Ev.Exhausts] at hx; rw [he] at hx; cases hx
      | disposal s o u a =>
        simp only [Ev.Open] at he; simp only [Ev.Exhausts] at hx
        obtain ⟨h1, h2, h3⟩ := hx
        subst h1 h2 h3
        simp at he
      | cleanup s => exact hx
    · have h2 := pending_room hinv e m hm
      rw [← hmax, ← hmax', hm, ← hb.2]
      congr 1
      omega
  | deficient h _ _ _ | cleaned h _ => rw [h] at hb; simp at hb
  | pending h _ _ _ => rw [h] at hb; simp at hb

/-- C19: with a bound `max`, a batch is emitted as soon as `max` elements are there: there
are never `max` elements left in a collection. -/
theorem C19_prompt (min m : Nat) (c : Coll α) (hc : Coll.setup min (some m) = some c)
    (es : List (Ev α)) (session : Nat) : ((run c es).map session).length < m := by
  obtain ⟨hinv, _, hmax, _, _⟩ := setup_inv hc
  obtain ⟨hinv, _, hmax'⟩ := run_inv es hinv
  exact hinv.room m (hmax'.trans hmax) session

/-- C19: when the inputs of a session are exhausted, all that was collected for it is sent
in one batch if that is enough; if it is not, a disposal tells how many there are, and the
elements stay. Without the bound `max`, or below it, nothing else is emitted. -/
theorem C19_exhausted (min : Nat) (max : Option Nat) (c : Coll α)
    (hc : Coll.setup min max = some c) (es : List (Ev α)) (e : Ev α) (he : e.Exhausts) :
    let pending := pendingAfterArrival ((run c es).map e.session) e
    (min ≤ pending.length → (run c (es ++ [e])).map e.session = [] ∧
      (run c (es ++ [e])).log = (run c es).log ++ [.sent e.session pending]) ∧
    (pending.length < min → (run c (es ++ [e])).map e.session = pending ∧
      (run c (es ++ [e])).log = (run c es).log ++ [.deficient e.session pending.length]) := by
  obtain ⟨hinv, hmin, hmax, _, _⟩ := setup_inv hc
  obtain ⟨hinv, hmin', hmax'⟩ := run_inv es hinv
  rw [run_append]
  simp only [run]
  rw [hmin] at hmin'
  generalize run c es = c1 at *
  have hopen : ¬ e.Open := by
    intro ho
    cases e with
    | input s d a => simp only [Ev.Open] at ho; simp only [Ev.Exhausts] at he; rw [ho] at he; cases he
    | disposal s o u a =>
      simp only [Ev.Open] at ho; simp only [Ev.Exhausts] at he
      obtain ⟨h1, h2, h3⟩ := he
      subst h1 h2 h3
      simp at ho
    | cleanup s => exact he
  cases step_case c1 e with
  | sent h hs _ =>
    rw [h]
    refine ⟨fun _ => ⟨by simp, rfl⟩, fun hl => ?_⟩
    exfalso
    rcases hs with ⟨_, h2⟩ | ⟨m, _, _, _, _, hm, h2⟩
    · omega
    · have := (hinv.bounds m hm).2
      omega
  | deficient h hb _ _ =>
    rw [h]
    exact ⟨fun hl => absurd hb (by omega), fun _ => ⟨by simp, rfl⟩⟩
  | cleaned h hcl => rw [hcl] at he; exact absurd he (by simp [Ev.Exhausts])
  | pending h ho _ _ => exact absurd ho hopen

/-- C20: an event of one session leaves the collection of every other session as it was, and
everything that it emits is emitted in its own session. -/
theorem C20_isolation (c : Coll α) (e : Ev α) :
    (∀ s, s ≠ e.session → (step c e).map s = c.map s) ∧
    ∃ new, (step c e).log = c.log ++ new ∧ ∀ r ∈ new, (∃ b, r = .sent e.session b) ∨
      (∃ n, r = .deficient e.session n) ∨ ∃ b, r = .cleaned e.session b := by
  cases step_case c e with
  | sent h _ _ =>
    rw [h]; exact ⟨fun s hs => by simp [hs], _, rfl, fun r hr => .inl ⟨_, List.mem_singleton.mp hr⟩⟩
  | deficient h _ _ _ =>
    rw [h]
    exact ⟨fun s hs => by simp [hs], _, rfl, fun r hr => .inr (.inl ⟨_, List.mem_singleton.mp hr⟩)⟩
  | cleaned h _ =>
    rw [h]
    exact ⟨fun s hs => by simp [hs], _, rfl, fun r hr => .inr (.inr ⟨_, List.mem_singleton.mp hr⟩)⟩
  | pending h _ _ _ => rw [h]; exact ⟨fun s hs => by simp [hs], [], by simp, by simp⟩

/-- C20: the batches of a session, in any interleaving with other sessions, are the batches
that the node emits if the other sessions do not exist. -/
theorem C20_refinement (min : Nat) (max : Option Nat) (c : Coll α)
    (hc : Coll.setup min max = some c) (es : List (Ev α)) (session : Nat) :
    batches session (run c es).log =
      batches session (run c (es.filter fun e => decide (e.session = session))).log := by
  have key : ∀ (es : List (Ev α)) (c d : Coll α), c.min = d.min → c.max = d.max →
      c.map session = d.map session → batches session c.log = batches session d.log →
      batches session (run c es).log =
        batches session (run d (es.filter fun e => decide (e.session = session))).log := by
    intro es
    induction es with
    | nil => intro c d _ _ _ h; exact h
    | cons e es ih =>
      intro c d h1 h2 h3 h4
      by_cases hs : e.session = session
      · rw [List.filter_cons_of_pos (by simpa using hs), run, run]
        have hb := step_bounds c e
        have hb' := step_bounds d e
        refine ih _ _ (by rw [hb.1, hb'.1, h1]) (by rw [hb.2, hb'.2, h2]) ?_ ?_
        all_goals
          cases e with
          | input s x a =>
            simp only [Ev.session] at hs
            subst hs
            simp only [step, Coll.execute, Coll.put, if_true, h2, h3]
            split
            · simp [Coll.send, Coll.put, h3, h4, batches] <;> (try exact h4)
            · split
              · first | exact h4 | simp
              · simp only [Coll.onUnreachable, if_true, h1]
                split
                · simp [batches] <;> (try exact h4)
                · simp [Coll.send, Coll.put, h3, h4, batches] <;> (try exact h4)
          | disposal s o u a =>
            simp only [Ev.session] at hs
            subst hs
            simp only [step]
            split
            · first | exact h3 | exact h4
            · split
              · first | exact h3 | exact h4
              · split
                · first | exact h3 | exact h4
                · simp only [Coll.onUnreachable, h1, h3]
                  split
                  · first | exact h3 | (simp [batches]; exact h4)
                  · simp [Coll.send, Coll.put, h3, h4, batches] <;> (try exact h4)
          | cleanup s =>
            simp only [Ev.session] at hs
            subst hs
            simp [step, Coll.put, batches] <;> (try exact h4)
      · rw [List.filter_cons_of_neg (by simpa using hs), run]
        have hb := step_bounds c e
        obtain ⟨i1, new, i2, i3⟩ := C20_isolation c e
        refine ih _ _ (by rw [hb.1, h1]) (by rw [hb.2, h2]) ?_ ?_
        · rw [i1 session (fun h => hs h.symm), h3]
        · rw [i2, ← h4]
          have : batches session new = [] := by
            simp only [batches, List.filterMap_eq_nil_iff]
            intro r hr
            rcases i3 r hr with ⟨b, rfl⟩ | ⟨n, rfl⟩ | ⟨b, rfl⟩
            · simp [hs]
            · rfl
            · rfl
          have happ : batches session (c.log ++ new) = batches session c.log ++ batches session new := by
            simp [batches]
          rw [happ, this, List.append_nil]
  exact key es c c rfl rfl rfl rfl

section Examples

/-- Two sessions; batches of two; at the end one element is left in session 1. -/
def sample : List (Ev Nat) :=
  [.input 1 10 true, .input 2 20 true, .input 1 11 true, .input 1 12 true, .input 2 21 true]

example : ∃ c, Coll.setup 1 (some 2) = some c ∧
    (run c sample).log = [.sent 1 [10, 11], .sent 2 [20, 21]] ∧ (run c sample).map 1 = [12] ∧
    (run c (sample ++ [.disposal 1 false true false])).log =
      [.sent 1 [10, 11], .sent 2 [20, 21], .sent 1 [12]] ∧
    batches 1 (run c sample).log = [[10, 11]] ∧ arrived 1 sample = [10, 11, 12] ∧
    (Ev.disposal (α := Nat) 1 false true false).Exhausts :=
  ⟨_, rfl, rfl, rfl, rfl, rfl, rfl, rfl, rfl, rfl⟩

/-- Too few elements. -/
example : ∃ c, Coll.setup 3 none = some c ∧
    (run c (sample ++ [.disposal 2 false true false])).log = [.deficient 2 2] := ⟨_, rfl, rfl⟩

end Examples

end Verif.Collect
