import Verif.Values.Ends
import Verif.Values.Props

/-
Property theorems of C124. The notions they are stated in are in Spec.lean; what one event does is
in Model.lean.
-/
namespace Verif.Values

open Flow (Wired)

variable {α : Type}

/-- The full statement of C124: a workflow without loops ends, with a response or by being
cancelled, as long as something happens whenever something can. -/
def C124_full : Prop :=
  ∀ (w : Work Nat) (x : Nat), Wired w.net → Layered w → ∀ f, Progress w x f →
    ∃ N, (after w x f N).status ≠ .active

/-- In a workflow without loops only finitely many events change anything, in whatever order they
come. -/
theorem C124_settles (w : Work α) (hw : Wired w.net) (hl : Layered w) (x : α) (f : Nat → Ev) :
    ∃ N, ∀ n, N ≤ n → after w x f n = after w x f N :=
  settles hw hl x f

/-- If something happens whenever something can, it ends or comes to a point where nothing is left
to do: it does not get stuck half way. -/
theorem C124_ends (w : Work α) (hw : Wired w.net) (hl : Layered w) (x : α) (f : Nat → Ev)
    (hf : Progress w x f) :
    ∃ N, Over (after w x f N) ∧ ∀ n, N ≤ n → after w x f n = after w x f N :=
  ends hw hl hf

/-- If moreover each buffer of a join is pulled, by no other join, and has room, it ends: with a
response or by being cancelled. -/
theorem C124_partial (w : Work α) (hw : Wired w.net) (hl : Layered w) (hp : Flow.Private w.net)
    (x : α) (f : Nat → Ev) (hf : Progress w x f) :
    ∃ N, ∀ n, N ≤ n → (after w x f n).status ≠ .active := by
  obtain ⟨N, hover, hN⟩ := ends hw hl hf
  refine ⟨N, fun n hn => ?_⟩
  rw [hN n hn]
  rcases hover with h | ⟨h1, h2, h3, h4⟩
  · exact h
  · have : ∀ es (s : State α), Sound w x s → ∃ fes, (∀ e, e ∈ fes → Flow.Calm w.net e) ∧
        (run w s es).flat = Flow.run w.net s.flat fes := by
      intro es
      induction es with
      | nil => exact fun s _ => ⟨[], by simp, rfl⟩
      | cons e es ih =>
        intro s hs
        obtain ⟨fes, h1, h2⟩ := ih (step w s e) (hs.step hw e)
        refine ⟨flatEv w s e :: fes, ?_, ?_⟩
        · intro e' he'
          rcases List.mem_cons.1 he' with rfl | he'
          · unfold flatEv
            repeat' split
            all_goals trivial
          · exact h1 e' he'
        · show (run w (step w s e) es).flat =
            Flow.run w.net (Flow.step w.net s.flat (flatEv w s e)) fes
          rw [h2, flat_step hw s hs.fits e]
    obtain ⟨fes, hc, hrun⟩ := this ((List.range N).map f) (start w x) (Sound.start hw x)
    rw [flat_start] at hrun
    have hq : Flow.Quiescent (Flow.run w.net (Flow.start w.net) fes) := by
      rw [← hrun]
      refine ⟨fun n => ?_, fun n => ?_, fun _ => rfl, fun _ => rfl, h4⟩
      · show ((after w x f N).pending n).length + (after w x f N).wakes n = 0
        rw [h1 n, h2 n]
        rfl
      · show ((after w x f N).tasks n).length = 0
        rw [h3 n]
        rfl
    have := Flow.C78_no_hang_partial w.net hw hp fes hc hq
    rw [← hrun] at this
    exact this

/-- A workflow without loops and without races at its joins responds with the value that its graph
computes, whatever the order of execution, and this response stays. -/
theorem C124_responds (w : Work α) (hw : Wired w.net) (hl : Layered w) (x v : α)
    (ho : Orderly w x) (hu : Uncancelled w x) (hc : Comes w x w.terminal v)
    (hone : ∀ u, Comes w x w.terminal u → u = v) (f : Nat → Ev) (hf : Progress w x f) :
    ∃ N, ∀ n, N ≤ n → (after w x f n).outcome = some v := by
  obtain ⟨N, hover, hN⟩ := ends hw hl hf
  refine ⟨N, fun n hn => ?_⟩
  rw [hN n hn]
  refine C123_partial w hw (hl.noLoop hw) x v ho hu hc hone _ ?_ hover
  intro e he
  obtain ⟨i, _, rfl⟩ := List.mem_map.1 he
  exact hf.kept i

/-- And one whose graph computes no response, with joins as in `C124_partial`, is cancelled. -/
theorem C124_cancelled_partial (w : Work α) (hw : Wired w.net) (hl : Layered w)
    (hp : Flow.Private w.net) (x : α) (hno : ∀ v, ¬ Comes w x w.terminal v) (f : Nat → Ev)
    (hf : Progress w x f) : ∃ N, ∀ n, N ≤ n → (after w x f n).status = .cancelled := by
  obtain ⟨N, hN⟩ := C124_partial w hw hl hp x f hf
  refine ⟨N, fun n hn => ?_⟩
  cases hst : (after w x f n).status with
  | active => exact absurd hst (hN n hn)
  | cancelled => rfl
  | terminated =>
    obtain ⟨v, hv⟩ := Option.isSome_iff_exists.1 ((C123_outcome w hw x _).2 hst)
    exact absurd (C123_sound w hw x _ v hv) (hno v)

end Verif.Values
