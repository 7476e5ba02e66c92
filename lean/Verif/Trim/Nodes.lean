import Verif.Trim.Hold
import Verif.Graph.Lemmas

/-
All branches of a trim together.
-/
namespace Verif.Trim

open Verif.Graph (Net next allTargets OneOutput NoNamed)

theorem next_eq {w : Net} (h1 : OneOutput w) (h2 : NoNamed w) : next w = allTargets w := by
  funext e
  unfold next allTargets
  cases hl : w.lookup e with
  | none => rfl
  | some l =>
    have hn := h2 e l hl
    rcases h1 e l hl with h | h
    · cases hf : l.fork <;> simp [h, hf, hn]
    · cases hs : l.single <;> simp [h, hs, hn]

/-- A branch that is refused. -/
def Refuses (E : Nat → List Nat) (entry : Nat) (b : Branch) : Prop :=
  ∃ ends, b.policy = .span ends ∧ ∃ q ∈ ends, Between E entry b.start.id q.id

/-- What is taken for a branch. -/
def Takes (E : Nat → List Nat) (entry : Nat) (b : Branch) (n : Nat) : Prop :=
  match b.policy with
  | .downstream => DownstreamSpec E entry b.start.id n ∧ (b.start.inclusive = true ∨ n ≠ b.start.id)
  | .span ends => ∃ q ∈ ends, (n = q.id ∨ SpanSpec E entry b.start.id q.id n) ∧
      (b.start.inclusive = true ∨ n ≠ b.start.id) ∧ (q.inclusive = true ∨ n ≠ q.id)

theorem calculateBranch_spec (w : Net) (entry : Nat) (b : Branch) :
    (Refuses (next w) entry b ∧ ∃ e, calculateBranch w entry b = some (.error e)) ∨
    (¬ Refuses (next w) entry b ∧ ∃ l, calculateBranch w entry b = some (.ok l) ∧
      ∀ n, n ∈ l ↔ Takes (next w) entry b n) := by
  unfold calculateBranch
  obtain ⟨start, policy⟩ := b
  cases policy with
  | downstream =>
    right
    obtain ⟨l, h1, h2⟩ := calculateDownstream_spec w entry start
    refine ⟨?_, l, h1, fun n => h2 n⟩
    rintro ⟨ends, he, -⟩
    cases he
  | span ends =>
    dsimp only
    unfold calculateAllSpans
    have hf : ∀ q : Point, (Between (next w) entry start.id q.id ∧
        ∃ e, calculateSpanNodes w entry start q = some (.error e)) ∨
        (¬ Between (next w) entry start.id q.id ∧
          ∃ l, calculateSpanNodes w entry start q = some (.ok l) ∧
            ∀ n, n ∈ l ↔ (n = q.id ∨ SpanSpec (next w) entry start.id q.id n) ∧
              (start.inclusive = true ∨ n ≠ start.id) ∧ (q.inclusive = true ∨ n ≠ q.id)) := by
      intro q
      rcases calculateSpanNodes_spec w entry start q with ⟨h1, h2⟩ | h
      · exact .inl ⟨h1, _, h2⟩
      · exact .inr h
    rcases gather_spec hf ends [] with ⟨⟨q, hq, hb⟩, e, he⟩ | ⟨hg, l, hl, -, hm⟩
    · exact .inl ⟨⟨ends, rfl, q, hq, hb⟩, e, he⟩
    · refine .inr ⟨?_, l, hl, ?_⟩
      · rintro ⟨ends', he, q, hq, hb⟩
        cases he
        exact hg q hq hb
      · intro n
        rw [hm]
        simp [Takes]

theorem calculateNodes_spec (w : Net) (entry : Nat) (branches : List Branch) :
    ((∃ b ∈ branches, Refuses (next w) entry b) ∧
      ∃ e, calculateNodes w entry branches = some (.error e)) ∨
    ((∀ b ∈ branches, ¬ Refuses (next w) entry b) ∧
      ∃ l, calculateNodes w entry branches = some (.ok l) ∧ l.Pairwise (· < ·) ∧
        ∀ n, n ∈ l ↔ ∃ b ∈ branches, Takes (next w) entry b n) := by
  rcases gather_spec (calculateBranch_spec w entry) branches [] with h | ⟨h1, l, h2, h3, h4⟩
  · exact .inl h
  · refine .inr ⟨h1, l, h2, h3, ?_⟩
    intro n
    rw [h4]
    simp

/-- The end of a span that can be walked belongs to it. -/
theorem spanSpec_end {E : Nat → List Nat} {entry a b : Nat}
    (h : Walk E (fun _ => True) (fun m => ¬ Between E entry a m) a b) :
    SpanSpec E entry a b b ∧ ¬ Between E entry a b := by
  refine ⟨⟨?_, .here⟩, ?_⟩
  · rcases h.stop b with h | h <;> exact h
  · rcases h.enter with h | h
    · exact fun hb => hb.1 h
    · exact h

theorem valid_takes {E : Nat → List Nat} {entry : Nat} {b : Branch} (h : Valid E entry b) (n : Nat) :
    Takes E entry b n ↔ BranchSpec E entry b n := by
  obtain ⟨start, policy⟩ := b
  cases policy with
  | downstream => exact Iff.rfl
  | span ends =>
    simp only [Takes, BranchSpec]
    constructor
    · rintro ⟨q, hq, h1 | h1, h2⟩
      · exact ⟨q, hq, h1 ▸ (spanSpec_end (h q hq)).1, h2⟩
      · exact ⟨q, hq, h1, h2⟩
    · rintro ⟨q, hq, h1, h2⟩
      exact ⟨q, hq, .inr h1, h2⟩

theorem valid_not_refused {E : Nat → List Nat} {entry : Nat} {b : Branch} (h : Valid E entry b) :
    ¬ Refuses E entry b := by
  rintro ⟨ends, he, q, hq, hb⟩
  unfold Valid at h
  rw [he] at h
  exact (spanSpec_end (h q hq)).2 hb

end Verif.Trim
