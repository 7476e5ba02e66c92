import Verif.Wire.Calls

/-
Property theorems C81 and C82: what the builder of a workflow leaves behind.
-/
namespace Verif.Wire

/-! ### C81 -/

/-- The wiring of a workflow is what its builder was asked for.

* `targets`: every operation sends to where its outputs were connected;
* `inputs`: an operation looks for what may still reach it exactly at the
  operations that send to it;
* `once`: and at each of them once;
* `live`: nothing is sent to where there is neither an operation nor an output
  that the user still holds;
* `entry`: a scope takes what comes in to where its start was connected;
* `entryLive`: where there is an operation, or the start is still held;
* `clean`: no error was reported. -/
structure Wired (b : Build) (p : Plan) : Prop where
  targets : ∀ x, b.world.targets x = (p.outs x).map p.dest
  inputs : ∀ x y, x ∈ b.world.inputs y ↔ y ∈ b.world.targets x
  once : ∀ y, (b.world.inputs y).Nodup
  live : ∀ x, ∀ n ∈ p.outs x,
    b.world.IsOp (p.dest n) ∨ (p.dest n = n ∧ n ∈ b.outs.map (·.target))
  entry : ∀ s, (b.world.ents s).bind (·.entry) = (p.entry s).map p.dest
  entryLive : ∀ s n, p.entry s = some n →
    b.world.IsOp (p.dest n) ∨ (p.dest n = n ∧ n ∈ b.outs.map (·.target))
  clean : b.world.errors = 0

/-- The full statement of C81. -/
def C81_full : Prop :=
  ∀ (cs : List Call) (b : Build), Build.start.run cs = some b → Wired b (Plan.start.run cs)

/-- **C81** for workflows in which no stream pack has two streams of one type or
one name. Missing: such packs. The second stream is reported as an error but its
output is handed out all the same; see `C81_wiring_violated`. -/
theorem C81_wiring_partial (cs : List Call) (hd : ∀ c ∈ cs, c.Distinct) (b : Build)
    (hb : Build.start.run cs = some b) : Wired b (Plan.start.run cs) := by
  have h := Inv.start.run cs hd hb
  have key : ∀ n, b.world.IsOp ((Plan.start.run cs).dest n) ∨
      (Plan.start.run cs).dest n ∈ b.outs.map (·.target) →
      b.world.IsOp ((Plan.start.run cs).dest n) ∨
        ((Plan.start.run cs).dest n = n ∧ n ∈ b.outs.map (·.target)) := by
    intro n hn
    rcases hn with hn | hn
    · exact .inl hn
    · rcases h.dest n with hd | hd
      · exact .inr ⟨hd, by rw [hd] at hn; exact hn⟩
      · exact .inl hd
  refine ⟨h.tgt, h.inp, h.nodupIn, ?_, h.ent, ?_, h.clean⟩
  · intro x n hn
    apply key
    rcases (h.live x _ (by rw [h.tgt]; exact List.mem_map_of_mem hn)).2 with h1 | h1 | h1
    · exact .inl h1
    · exact .inr h1
    · cases h1
  · intro s n hn
    apply key
    rcases (h.entLive s n hn).2 with h1 | h1 | h1
    · exact .inl h1
    · exact .inr h1
    · cases h1

/-- A workflow to try the theorem on. The start is chained into a node with two
streams (entity 1, outputs 3, 4, 5); its output goes to a fork (6 and 7), the
first branch back to the node, the second to a scope with one stream; inside
that scope a node is chained onto the start. One stream goes into a buffer that
a listener watches. -/
def sample : List Call :=
  [ .node (.chained ⟨1, 0⟩) [10, 11],
    .fork (.chained ⟨3, 0⟩) 2,
    .connect ⟨6, 0⟩ ⟨1, 0⟩,
    .newScope (.chained ⟨7, 0⟩) 1,
    .node (.chained ⟨9, 7⟩) [],
    .connect ⟨13, 7⟩ ⟨10, 7⟩,
    .connect ⟨8, 0⟩ ⟨2, 0⟩,
    .buffer 0,
    .connect ⟨4, 0⟩ ⟨14, 0⟩,
    .connect ⟨12, 0⟩ ⟨14, 0⟩,
    .listener 0 [⟨14, 0⟩],
    .branch ⟨3, 0⟩ ]

example : ∃ b, Build.start.run sample = some b ∧ (∀ c ∈ sample, c.Distinct) ∧
    b.world.targets 1 = [3, 14, 5] ∧ b.world.targets 3 = [1, 7, 17] ∧
    b.world.inputs 1 = [3] ∧ b.world.inputs 14 = [1, 11] ∧ b.world.targets 14 = [15] ∧
    (b.world.ents 7).bind (·.contents) = some [11, 9] ∧
    b.outs = [⟨5, 0⟩, ⟨16, 0⟩, ⟨17, 0⟩] := by
  refine ⟨_, rfl, ?_, ?_, ?_, ?_, ?_, ?_, ?_, ?_⟩ <;> decide

/-- A node with two streams of one type, the second of which is connected to a
sink. -/
def duplicate : List Call :=
  [ .node (.chained ⟨1, 0⟩) [10, 10], .sink 0, .connect ⟨5, 0⟩ ⟨6, 0⟩ ]

/-- The full C81 is false: of two streams of one type the second is not sent
anywhere, although its output was handed out and connected. -/
theorem C81_wiring_violated : ¬ C81_full := by
  intro h
  obtain ⟨b, hb, ht⟩ : ∃ b, Build.start.run duplicate = some b ∧ b.world.targets 1 = [3, 4] :=
    ⟨_, rfl, by decide⟩
  have h1 := (h duplicate b hb).targets 1
  rw [ht] at h1
  revert h1
  decide

/-- What is lost: the sink waits for the node, which has no way of reaching it. -/
example : ∃ b, Build.start.run duplicate = some b ∧ (Plan.start.run duplicate).outs 1 = [3, 4, 5] ∧
    (Plan.start.run duplicate).dest 5 = 6 ∧ b.world.targets 1 = [3, 4] ∧ b.world.inputs 6 = [1] := by
  refine ⟨_, rfl, ?_, ?_, ?_, ?_⟩ <;> decide

/-! ### C82 -/

/-- The scopes of a workflow are as its builder was asked for.

* `contents`: a scope holds the operations that were added to it, in that order;
* `home`: an operation that an output was connected to, or that was chained onto
  it, belongs to the scope in which the output may be used;
* `slot`: every input that the user holds is that of an operation of the scope
  that the handle names. -/
structure Scoped (b : Build) (p : Plan) : Prop where
  contents : ∀ s, ((b.world.ents s).bind (·.contents)).getD [] = p.inside s
  home : ∀ n, p.Named n → ∀ e, b.world.ents (p.dest n) = some e → e.op = true →
    e.scope = some (p.home n)
  slot : ∀ s ∈ b.slots, ∃ e, b.world.ents s.source = some e ∧ e.op = true ∧
    e.scope = some s.scope

/-- The full statement of C82. -/
def C82_full : Prop :=
  ∀ (cs : List Call) (b : Build), Build.start.run cs = some b → Scoped b (Plan.start.run cs)

/-- **C82**, for the same workflows as C81. Missing: stream packs with two
streams of one type or one name. -/
theorem C82_scopes_partial (cs : List Call) (hd : ∀ c ∈ cs, c.Distinct) (b : Build)
    (hb : Build.start.run cs = some b) : Scoped b (Plan.start.run cs) := by
  have h := Inv.start.run cs hd hb
  exact ⟨h.inside, h.home, h.slot⟩

example : (Plan.start.run sample).Named 13 ∧ (Plan.start.run sample).home 13 = 7 ∧
    (Plan.start.run sample).dest 13 = 10 ∧ (Plan.start.run sample).inside 0 = [1, 3, 7, 14, 15] := by
  refine ⟨.inl ⟨9, by decide⟩, ?_, ?_, ?_⟩ <;> decide

/-- A connection that would cross scopes is not made: `Builder::connect` panics. -/
theorem C82_no_crossing (b : Build) (o : Output) (i : Slot) (h : o.scope ≠ i.scope) :
    b.call (.connect o i) = none := by
  simp only [Build.call]
  rw [if_neg (fun hx => h hx.2.2)]

end Verif.Wire
