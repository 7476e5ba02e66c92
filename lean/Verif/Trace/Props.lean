import Verif.Trace.Lemmas

/-
Property theorems C101 to C103: traces.
-/
namespace Verif.Trace

open Verif.Input Verif.Flush

set_option linter.unusedSectionVars false

variable {E T U I J X : Type} [DecidableEq E]

/-! ### C101: the stack of sessions -/

/-- **C101**. However sessions were made, nested, extended, detached and despawned: collecting
the stack of a session ends, and the result begins with a session that has no parent, goes from
parent to child, and ends with the session. -/
theorem C101_stack (ops : List FOp) (s : Nat) :
    let f := Forest.empty.applyAll ops
    ∃ st, f.stack s = some st ∧ IsStack f.parent s st :=
  Forest.Grown.stack ⟨ops, rfl⟩ s

/-- **C101**. There is only one such stack. -/
theorem C101_unique (parent : Nat → Option Nat) (s : Nat) (st st' : List Nat)
    (h : IsStack parent s st) (h' : IsStack parent s st') : st = st' := by
  have key : ∀ (l : List Nat) (x : Nat), IsStack parent x l.reverse → Up parent x l := by
    intro l
    induction l with
    | nil => intro x hx; simpa using hx.last
    | cons a l ih =>
      intro x hx
      have hxa : a = x := by simpa using hx.last
      subst hxa
      cases l with
      | nil =>
        obtain ⟨r, hr, hr0⟩ := hx.root
        simp only [List.reverse_cons, List.reverse_nil, List.nil_append, List.head?_cons,
          Option.some.injEq] at hr
        exact .root (hr ▸ hr0)
      | cons b l =>
        have hb : parent a = some b := by
          refine hx.child l.length b a ?_ ?_
          · simp
          · simp
        refine .step hb (ih b ⟨by simp, ?_, ?_⟩)
        · obtain ⟨r, hr, hr0⟩ := hx.root
          refine ⟨r, ?_, hr0⟩
          rw [List.reverse_cons] at hr
          cases hl : (b :: l).reverse with
          | nil => simp at hl
          | cons c t => rw [hl] at hr; simpa using hr
        · intro i c d hc hd
          refine hx.child i c d ?_ ?_
          · rw [List.reverse_cons, List.getElem?_append_left ?_]
            · exact hc
            · exact (List.getElem?_eq_some_iff.1 hc).1
          · rw [List.reverse_cons, List.getElem?_append_left ?_]
            · exact hd
            · exact (List.getElem?_eq_some_iff.1 hd).1
  have h1 := key st.reverse s (by simpa using h)
  have h2 := key st'.reverse s (by simpa using h')
  simpa using h1.unique h2

/-- **C101**. A session that is made inside of another one (a scope begins, a workflow is called)
has the stack of the other one with itself on top. -/
theorem C101_nested (ops : List FOp) (p : Nat) :
    let f := Forest.empty.applyAll ops
    p < f.next →
    (f.apply (.child p)).stack f.next = (f.stack p).map (· ++ [f.next]) ∧
    ∀ x, x ≠ f.next → (f.apply (.child p)).stack x = f.stack x := by
  intro f hp
  have g : Good f := good_empty.applyAll ops
  have g' := g.apply (.child p)
  have hpar : (f.apply (.child p)).parent = fun x => if x = f.next then some p else f.parent x := by
    simp [Forest.apply, hp]
  have hold : ∀ x l, x ≠ f.next → Up f.parent x l → Up (f.apply (.child p)).parent x l := by
    intro x l hx hl
    refine hl.congr hx (fun y q hy => Nat.ne_of_lt (g.lt y q hy)) (fun y hy => ?_)
    rw [hpar]; simp [hy]
  constructor
  · obtain ⟨l, hl, _⟩ := g.up p
    have : Up (f.apply (.child p)).parent f.next (f.next :: l) :=
      .step (by rw [hpar]; simp) (hold p l (Nat.ne_of_lt hp) hl)
    rw [g.stack hl, g'.stack this]
    simp
  · intro x hx
    obtain ⟨l, hl, _⟩ := g.up x
    rw [g.stack hl, g'.stack (hold x l hx hl)]

/-- A series 0 ← 1 that goes on to 2, in which a workflow is called (3) that begins a scope (4). -/
example : (Forest.empty.applyAll [.root, .child 0, .extend 0, .child 1, .child 3]).stack 4 =
    some [2, 0, 1, 3, 4] := by decide

/-- Another call, after the first one has been despawned. -/
example : (Forest.empty.applyAll [.root, .child 0, .extend 0, .child 1, .child 3, .despawn 3,
    .child 1]).stack 5 = some [2, 0, 1, 5] := by decide

/-! ### C102: one event for each input that is taken -/

/-- **C102**, one step. If the flush executes an operation whose trace is on, which takes the
input `i`, one event is sent: it names the operation and its information, has the stack of the
session of `i` and, if messages are asked for and can be serialised, the message.
(Partial: if the message cannot be serialised no event is sent, see `C103_violated`.) -/
theorem C102_event_partial (A : App E T U I J X) (s : St (World E T U I J X) E)
    (hf : s.world.forest.Grown) (e : E) (i : Inp Nat T) (tr : Trace I T J X)
    (ht : taking (plain s) = some (e, i)) (htr : s.world.trace e = some tr)
    (hon : tr.toggle = .on ∨ tr.toggle = .messages)
    (hser : ∀ f, tr.toggle = .messages → tr.ser = some f → ∃ j, f i.data = .ok j) :
    ∃ ev : Event E I J, (Flush.tick A.prog s).1.world.events = s.world.events ++ [ev] ∧
      ev.operation = e ∧ ev.info = tr.info ∧ ev.message = shown tr i.data ∧
      IsStack s.world.forest.parent i.session ev.stack := by
  have h := step_events A s .tick
  simp only [Ev.up, Flush.step, ht, htr] at h
  have hon' : tr.toggle.isOn = true := by rcases hon with h | h <;> simp [Toggle.isOn, h]
  obtain ⟨m, hm⟩ : ∃ m, tr.message i.data = .ok m := by
    unfold Trace.message
    split
    · rename_i hw
      simp only [Toggle.withMessages, decide_eq_true_eq] at hw
      cases hs : tr.ser with
      | none => exact ⟨none, rfl⟩
      | some f =>
        obtain ⟨j, hj⟩ := hser f hw hs
        exact ⟨some j, by simp [hj]⟩
    · exact ⟨none, rfl⟩
  simp only [hon', if_true, hm] at h
  obtain ⟨st, hst, his⟩ := hf.stack i.session
  exact ⟨_, h, rfl, rfl, message_shown hm, by rw [hst]; exact his⟩

/-- **C102**, one step. In any other case no event is sent: the trace is off, there is none, or
no input is taken. -/
theorem C102_silent (A : App E T U I J X) (s : St (World E T U I J X) E)
    (h : ∀ e i tr, taking (plain s) = some (e, i) → s.world.trace e = some tr →
      tr.toggle = .off) :
    (Flush.tick A.prog s).1.world.events = s.world.events := by
  have hs := step_events A s .tick
  simp only [Ev.up, Flush.step] at hs
  rw [hs]
  cases ht : taking (plain s) with
  | none => simp
  | some p =>
    obtain ⟨e, i⟩ := p
    simp only
    cases htr : s.world.trace e with
    | none => simp
    | some tr => simp [h e i tr ht htr, Toggle.isOn]

/-- **C102**, runs. Whatever happens in a run in which no message failed to be serialised: if the
trace of operation `e` is on all the time, the events of `e` are one for each input that it has
taken, in this order, each with the session of the input, and with the message if asked for and
serialisable; if it is off all the time, there are none. -/
theorem C102_run_partial (A : App E T U I J X) (e : E) (tr : Trace I T J X)
    (vs : List (Ev E T U I J X)) : ∀ (s : St (World E T U I J X) E), s.world.forest.Grown →
    (∀ n, (Flush.run A.prog s ((vs.take n).map Ev.up)).1.world.trace e = some tr) →
    (Flush.run A.prog s (vs.map Ev.up)).1.world.errors = s.world.errors →
    ∃ new, (Flush.run A.prog s (vs.map Ev.up)).1.world.events = s.world.events ++ new ∧
      ((new.filter fun ev => decide (ev.operation = e)).map fun ev =>
          (ev.stack.getLast?, ev.info, ev.message)) =
        if tr.toggle = .off then []
        else (takes A e s vs).map fun i => (some i.session, tr.info, shown tr i.data) := by
  induction vs with
  | nil =>
    intro s _ _ _
    exact ⟨[], by simp [Flush.run], by simp [takes]⟩
  | cons v vs ih =>
    intro s hf htr herr
    obtain ⟨q1, q2⟩ := run_quiet A v vs s herr
    obtain ⟨new, hn, hm⟩ := ih (Flush.step A.prog s v.up).1 (step_forest A s v hf)
      (fun n => by simpa [Flush.run] using htr (n + 1)) q2
    have h0 : s.world.trace e = some tr := by simpa [Flush.run] using htr 0
    have hs := step_events A s v
    refine ⟨_, by simp only [List.map_cons, Flush.run]; rw [hn, hs, List.append_assoc], ?_⟩
    rw [List.filter_append, List.map_append, hm]
    simp only [takes]
    cases v with
    | env f ss g l c w => simp
    | tick =>
      cases ht : taking (plain s) with
      | none => simp
      | some p =>
        obtain ⟨e', i⟩ := p
        simp only
        by_cases he : e' = e
        · subst he
          simp only [h0, if_true]
          by_cases hoff : tr.toggle = .off
          · simp [hoff, Toggle.isOn]
          · have hon : tr.toggle.isOn = true := by simp [Toggle.isOn, hoff]
            simp only [hon, if_true, hoff, if_false]
            cases hm' : tr.message i.data with
            | error x =>
              have := step_fails A s ht h0 hon hm'
              simp only [Ev.up] at q1
              rw [q1] at this
              have := congrArg List.length this
              simp at this
            | ok m =>
              obtain ⟨st, hst, his⟩ := hf.stack i.session
              simp [hst, his.last, message_shown hm']
        · have hfil : ∀ l : List (Event E I J), (∀ ev ∈ l, ev.operation = e') →
              (l.filter fun ev => decide (ev.operation = e)) = [] := by
            intro l hl
            rw [List.filter_eq_nil_iff]
            intro ev hev
            rw [hl ev hev]
            simpa using he
          rw [hfil]
          · simp [he]
          · intro ev hev
            split at hev
            · split at hev
              · split at hev
                · simp only [List.mem_singleton] at hev; rw [hev]
                · cases hev
              · cases hev
            · cases hev

/-! ### C103: tracing changes nothing -/

/-- **C103**. Whatever happens, whichever traces are on and however they are changed: if no
message failed to be serialised for a trace, the run is exactly the one of the same application
without tracing. (Partial: otherwise it is not, see `C103_violated`.) -/
theorem C103_transparent_partial (A : App E T U I J X) (vs : List (Ev E T U I J X)) :
    ∀ (s : St (World E T U I J X) E),
    (Flush.run A.prog s (vs.map Ev.up)).1.world.errors = s.world.errors →
    Flush.run A.app.prog (plain s) (vs.map Ev.down) =
      (plain (Flush.run A.prog s (vs.map Ev.up)).1, (Flush.run A.prog s (vs.map Ev.up)).2) := by
  induction vs with
  | nil => intro s _; rfl
  | cons v vs ih =>
    intro s h
    obtain ⟨q1, q2⟩ := run_quiet A v vs s h
    have h1 := step_plain A s v q1
    have h2 := ih (Flush.step A.prog s v.up).1 q2
    simp only [List.map_cons, Flush.run, h1, h2]

/-! ### Examples

Operation 0 sends its message to operation 1, which logs it. Messages from 100 on cannot be
serialised. -/

def sample (toggle : Toggle) : App Nat Nat (List Nat) String Nat String where
  app :=
    { params := fun _ => ⟨none, none⟩
      op := fun e i u => if e = 0 then (u, [.give 1 i.session i.data]) else (u ++ [i.data], [])
      other := fun _ u => (u, []) }
  sessions := fun _ _ => []
  settings := fun c _ t =>
    match c with
    | .services => fun e =>
      if e < 2 then some ⟨toggle, "op", some fun n => if n < 100 then .ok n else .error "too big"⟩
      else none
    | _ => t

/-- Two requests at operation 0. -/
def sampleStart (a b : Nat) : St (World Nat Nat (List Nat) String Nat String) Nat :=
  { init ⟨⟨fun e => ⟨some (if e = 0 then [⟨2, b⟩, ⟨1, a⟩] else []), false, none, none⟩,
      fun _ => true, []⟩, fun _ => none, Forest.empty.applyAll [.root, .child 0, .child 1], [], []⟩ with
    later := { queue := [0, 0] } }

/-- A run with two messages that can be serialised. -/
example :
    let r := Flush.run (sample .messages).prog (sampleStart 5 6)
      ((List.replicate 60 Ev.tick).map Ev.up)
    r.1.world.errors = [] ∧ r.1.world.base.user = [5, 6] ∧
    r.1.world.events = [⟨0, [0, 1], "op", some 5⟩, ⟨0, [0, 1, 2], "op", some 6⟩,
      ⟨1, [0, 1], "op", some 5⟩, ⟨1, [0, 1, 2], "op", some 6⟩] := by
  decide +kernel

/-- Without messages. -/
example :
    let r := Flush.run (sample .on).prog (sampleStart 5 106)
      ((List.replicate 60 Ev.tick).map Ev.up)
    r.1.world.errors = [] ∧ r.1.world.base.user = [5, 106] ∧
    (r.1.world.events.map (·.message)) = [none, none, none, none] := by
  decide +kernel

/-- A state to which `C102_event_partial` applies. -/
example :
    let s := (Flush.run (sample .messages).prog (sampleStart 5 6)
      ((List.replicate 12 Ev.tick).map Ev.up)).1
    taking (plain s) = some (0, ⟨1, 5⟩) ∧
      (s.world.trace 0).map (·.toggle) = some .messages := by
  decide +kernel

/-- **C103**, false in general, and contrary to src/diagram.rs:418-419: a message that cannot be
serialised is not just left out of the event. The input is lost, the operation is broken, and the
workflow does something else than without tracing. -/
theorem C103_violated :
    let vs : List (Ev Nat Nat (List Nat) String Nat String) := List.replicate 60 .tick
    (Flush.run (sample .off).prog (sampleStart 5 106) (vs.map Ev.up)).1.world.base.user = [5, 106] ∧
    (Flush.run (sample .on).prog (sampleStart 5 106) (vs.map Ev.up)).1.world.base.user = [5, 106] ∧
    (Flush.run (sample .messages).prog (sampleStart 5 106) (vs.map Ev.up)).1.world.base.user = [5] ∧
    (Flush.run (sample .messages).prog (sampleStart 5 106) (vs.map Ev.up)).1.world.errors =
      ["too big"] ∧
    .ran .cancel 0 ∈ (Flush.run (sample .messages).prog (sampleStart 5 106) (vs.map Ev.up)).2 := by
  decide +kernel

end Verif.Trace
