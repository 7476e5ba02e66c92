import Verif.Many.Spec
import Verif.Many.Runs
import Verif.Flow.Props

/-
Property theorem C117, and C78 and C79 for workflows with many sessions. The notions they are
stated in are in Spec.lean; what one event does is in Model.lean.
-/
namespace Verif.Many

open Flow (Net Kind Status State Choice Wired)

/-! ### C117 -/

/-- **C117**: however the sessions of a workflow are mixed, a session is always where its own
events would have led it had it been the only one: it has ended in the same way, and while it
runs it has the same messages at each operation, the same tasks, buffered values, keys and gates. -/
theorem C117_sessions_apart (net : Net) (hw : Wired net) (es : List Ev) (x : Nat)
    (hx : (run net empty es).status x ≠ none) :
    let alone := Flow.run net (Flow.start net) (mine net x empty es)
    (run net empty es).status x = some alone.status ∧
      (alone.status = .active → (run net empty es).of x = alone) :=
  fresh_at hw x es (fresh_empty net) rfl hx

/-- **C117**: a new session is not held up by the others, wherever they are: whatever it could
do alone it can still do, with the other sessions going on in between. -/
theorem C117_not_held_up (net : Net) (hw : Wired net) (before : List Ev) (x : Nat)
    (hx : (run net empty before).status x = none) (own : List Flow.Ev) :
    ∃ es, let W := run net (run net empty before) (.start x :: es)
      let alone := Flow.run net (Flow.start net) own
      W.status x = some alone.status ∧ (alone.status = .active → W.of x = alone) := by
  have hf := fresh_run hw before (fresh_empty net)
  have hb := begin_spec hw hf hx
  have he : step net (run net empty before) (.start x) = begin net (run net empty before) x := by
    simp only [step]; rw [if_pos hx]
  have hat : At (step net (run net empty before) (.start x)) x (Flow.start net) := by
    rw [he]
    exact ⟨hb.2.2.1, fun _ => hb.2.1⟩
  exact reach_run hw own hat

/-- **C117** for a session that is already running: what it can still do does not depend on where
the other sessions are, so two workflows that differ in nothing but their other sessions lead it
to the same ends. -/
theorem C117_same_futures (net : Net) (hw : Wired net) (W V : Multi) (x : Nat)
    (hW : W.status x = some .active) (hV : V.status x = some .active) (h : W.of x = V.of x)
    (es : List Ev) : ∃ es', (run net V es').status x = (run net W es).status x := by
  have hat : At W x (W.of x) := ⟨by rw [hW, of_active hW], fun _ => rfl⟩
  have hat' : At V x (W.of x) := ⟨by rw [hV, of_active hW], fun _ => h.symm⟩
  obtain ⟨es', hes⟩ := reach_run hw (mine net x W es) hat'
  exact ⟨es', by rw [hes.1, (at_run hw x es hat).1]⟩

/-! ### C78 and C79 for workflows with many sessions -/

/-- **C78** for workflows with many sessions: once nothing is left to do for a session it has
terminated or has been cancelled, whatever the other sessions do. The conditions are those of
`Flow.C78_no_hang_partial`. -/
theorem C78_every_session_partial (net : Net) (hw : Wired net) (hp : Flow.Private net)
    (es : List Ev) (he : ∀ e, e ∈ es → Calm net e) (x : Nat)
    (hr : Resting (run net empty es) x) : (run net empty es).status x ≠ some .active := by
  intro ha
  obtain ⟨h1, h2⟩ := C117_sessions_apart net hw es x (by rw [ha]; simp)
  rw [ha] at h1
  have h1 := Option.some.inj h1
  refine Flow.C78_no_hang_partial net hw hp _ (mine_calm es he) ?_ h1.symm
  rw [← h2 h1.symm]
  exact ⟨fun n => List.count_eq_zero.mpr (hr.1 n), fun n => List.count_eq_zero.mpr (hr.2.1 n),
    hr.2.2.1, hr.2.2.2.1, List.count_eq_zero.mpr hr.2.2.2.2⟩

/-- **C79** for workflows with many sessions: if the check of a disposal of session `x` cancels
it, then without the check it would not have terminated either, whatever the others do. The
conditions are those of `Flow.C79_session_partial`. -/
theorem C79_every_session_partial (net : Net) (hw : Wired net) (hl : Flow.NoLoopIntoJoin net)
    (hcl : Flow.GatesOnlyClose net) (hu : Flow.JoinsUngated net) (before : List Ev) (x : Nat)
    (ha : (run net empty before).status x = some .active)
    (hd : (run net empty before).disposed.head? = some x)
    (hc : (step net (run net empty before) .check).status x = some .cancelled) (es : List Ev) :
    (run net (run net empty before) es).status x ≠ some .terminated := by
  obtain ⟨h1, h2⟩ := C117_sessions_apart net hw before x (by rw [ha]; simp)
  have h3 : (Flow.run net (Flow.start net) (mine net x empty before)).status = .active := by
    rw [ha] at h1
    exact (Option.some.inj h1).symm
  have hat : At (run net empty before) x
      (Flow.run net (Flow.start net) (mine net x empty before)) := ⟨h1, h2⟩
  have hcheck := at_step hw hat .check
  simp only [concerns, hd, if_true] at hcheck
  have hc' : (Flow.step net (Flow.run net (Flow.start net) (mine net x empty before))
      .check).status = .cancelled := by
    have := hcheck.1
    rw [hc] at this
    exact (Option.some.inj this).symm
  have := Flow.C79_session_partial net hw hl hcl hu _ h3 hc'
    (mine net x (run net empty before) es)
  rw [(at_run hw x es hat).1]
  exact fun h => this (Option.some.inj h)

end Verif.Many
