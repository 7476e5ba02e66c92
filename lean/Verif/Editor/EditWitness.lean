import Verif.Editor.EditProps
import Verif.Editor.DrawWitness
/-
Examples for C122, and edits after which a diagram cannot be exported or is not exported as drawn.
-/
namespace Verif.Editor

/-- Operations as they are when added. -/
def newUnzip : Op := ⟨"", .unzip []⟩
def newBuffer : Op := ⟨"", .buffer⟩
def newJoin : Op := ⟨"", .join (.arr []) none .dispose⟩
def newScope : Op := ⟨"", .scope .dispose [] .dispose⟩
def newSection : Op := ⟨"", .sect []⟩

/-- A scope with a buffer and a join in it, added in this order. -/
def desk1 : Board := Board.empty.add none 2 3 4 "s" newScope
def desk2 : Board := desk1.add (some 2) 5 105 205 "b" newBuffer
def desk3 : Board := desk2.add (some 2) 6 106 206 "j" newJoin
/-- The start of the diagram leads to the scope, that of the scope to the buffer, from there to the
join. -/
def desk4 : Board := desk3.connect 0 0 .plain 2
def desk5 : Board := desk4.connect 1 3 .plain 5
def desk6 : Board := desk5.connect 2 5 .plain 6
/-- The buffer gets a key and the join another name. -/
def desk7 : Board := ((desk6.field 2 (.byKey true)).field 2 (.bufferKey "x")).field 2 (.fetch true)
def desk : Board := desk7.rename 6 "join"

theorem not_taken {b : Board} {k : Key} (h : (b.nodes.filterMap Node.key?).contains k = false) :
    ¬ b.Taken k := by
  rintro ⟨n, hn, hk⟩
  have : k ∈ b.nodes.filterMap Node.key? := List.mem_filterMap.2 ⟨n, hn, hk⟩
  simp [this] at h

theorem desk_edits : Edits Board.empty desk := by
  have e1 : Edit Board.empty desk1 :=
    .add none 2 3 4 "s" newScope (by decide +kernel) (not_taken (by decide +kernel))
  have e2 : Edit desk1 desk2 :=
    .add (some 2) 5 105 205 "b" newBuffer (by decide +kernel) (not_taken (by decide +kernel))
  have e3 : Edit desk2 desk3 :=
    .add (some 2) 6 106 206 "j" newJoin (by decide +kernel) (not_taken (by decide +kernel))
  have e4 : Edit desk3 desk4 := .connect 0 0 .plain 2 (by decide +kernel)
  have e5 : Edit desk4 desk5 := .connect 1 3 .plain 5 (by decide +kernel)
  have e6 : Edit desk5 desk6 := .connect 2 5 .plain 6 (by decide +kernel)
  have e7 : Edits desk6 desk7 := .more (.more (.more (.none _) (.field 2 (.byKey true)))
    (.field 2 (.bufferKey "x"))) (.field 2 (.fetch true))
  have e8 : Edit desk7 desk := by
    refine .rename 6 "join" (by decide +kernel) ?_
    intro n hn hid ns name o hi
    refine not_taken ?_
    have h6 : desk7.nodes.all (fun n => n.id != 6 || n.item == .op ["s"] "j" newJoin) = true := by
      decide +kernel
    have := List.all_eq_true.1 h6 n hn
    rw [hid, hi] at this
    have : Item.op ns name o = .op ["s"] "j" newJoin := by simpa using this
    cases this
    decide +kernel
  exact .more (Edits.trans (.more (.more (.more (.more (.more (.more (.none _) e1) e2) e3) e4) e5) e6)
    e7) e8

/-- The hypotheses of `C122_sound_partial` and `C122_drawn` are met by that board, with its three
edges. -/
example : Sound desk ∧ NodesOk desk.graph.nodes ∧ desk.graph.edges.length = 3 :=
  ⟨C122_sound_partial _ _ (.inl rfl) desk_edits, (C122_drawn _ desk_edits).1,
    (C122_drawn _ desk_edits).2.2⟩

/-- The hypotheses of `C122_export_partial` and `C122_every_edge_partial` are met by that board. -/
example : ∃ d, export_ reg1 desk.graph "{}" = some d ∧
    ∀ e ∈ desk.graph.edges, Exported d.start (opAt d.ops) e := by
  obtain ⟨d, hd⟩ := C122_export_partial reg1 desk "{}" desk_edits
    (by
      intro e he hb t ht _
      have := List.all_eq_true.1 (show desk.nodes.all (fun t => !t.item.isSect) = true by
        decide +kernel) t ht
      simpa using this)
    (by
      intro e he e' _ _ i f k g h1
      have := List.all_eq_true.1 (show desk.edges.all (fun e =>
        match e.kind with | .bufferSeq _ _ => false | _ => true) = true by decide +kernel) e he
      rw [h1] at this
      cases this)
  refine ⟨d, hd, fun e he => C122_every_edge_partial reg1 desk "{}" d desk_edits hd ?_ ?_ e he ?_⟩
  · refine List.pairwise_of_forall_mem_list ?_
    intro w _ w' _ _ _ s hs _ ns name o hi hx
    have := List.all_eq_true.1 (show desk.nodes.all (fun t =>
      match t.item with
      | .op _ _ o => o.body.kind != .unzip && o.body.kind != .split && o.body.kind != .sect
      | _ => true) = true by decide +kernel) s hs
    rw [hi] at this
    simp only [Bool.and_eq_true, bne_iff_ne, ne_eq] at this
    rcases hx with e | e | e
    · exact this.1.1 e
    · exact this.1.2 e
    · exact this.2 e
  · have : desk.edges = [⟨0, 0, .plain, 2, .default, none⟩, ⟨1, 3, .plain, 5, .default, none⟩,
        ⟨2, 5, .plain, 6, .bufferKey "x" .clone, none⟩] := by decide +kernel
    rw [this]
    simp [EdgeKind.buffer?]
  · intro s hs
    have := List.all_eq_true.1 (show desk.graph.edges.all (fun e =>
      match e.kind with | .stream _ => false | _ => true) = true by decide +kernel) e he
    rw [hs] at this
    cases this

/-- The hypotheses of `C122_connect` are met by that board: a second edge from the start of the diagram
is not added, one from the join to the end of the scope is. -/
example : desk.connect 7 0 .plain 1 = desk ∧
    ∃ w, desk.connect 7 6 .plain 4 = { desk with edges := desk.edges ++ [w] } := by
  have hs := C122_sound_partial _ _ (.inl rfl) desk_edits
  have m0 : (⟨0, none, .start⟩ : Node) ∈ desk.nodes := by decide +kernel
  have m1 : (⟨1, none, .terminate⟩ : Node) ∈ desk.nodes := by decide +kernel
  have m4 : (⟨4, some 2, .terminate⟩ : Node) ∈ desk.nodes := by decide +kernel
  have m6 : (⟨6, some 2, .op ["s"] "join" newJoin⟩ : Node) ∈ desk.nodes := by decide +kernel
  constructor
  · refine (C122_connect desk hs _ _ m0 m1 7 .plain).2 ?_
    rintro ⟨_, _, h3, _⟩
    have he : (⟨0, 0, .plain, 2, .default, none⟩ : Wire) ∈ desk.edges := by decide +kernel
    exact h3 rfl _ he rfl rfl
  · obtain ⟨w, hw, _⟩ := (C122_connect desk hs _ _ m6 m4 7 .plain).1
      ⟨by decide +kernel, ⟨.default, by decide +kernel, by decide +kernel, by decide +kernel⟩,
        (fun _ => by decide +kernel), by decide +kernel⟩
    exact ⟨w, hw⟩

/-- An example for `C122_delete`: with the scope go its start and end, the buffer, the join and all
edges; the start and the end of the diagram stay. -/
example : (desk.remove [2]).nodes = Board.empty.nodes ∧ (desk.remove [2]).edges = [] ∧
    Within desk [2] 6 := by
  refine ⟨by decide +kernel, by decide +kernel, ?_⟩
  have h : (⟨6, some 2, .op ["s"] "join" newJoin⟩ : Node) ∈ desk.nodes := by decide +kernel
  exact .inside h rfl (.self (List.mem_cons_self ..))

/-- **C122** Renaming a scope does not change the namespaces of what is inside: the diagram cannot be
exported any more. -/
theorem C122_rename_scope_violated :
    (export_ reg1 desk.graph "{}").isSome ∧ export_ reg1 (desk.rename 2 "t").graph "{}" = none := by
  decide +kernel

/-- **C122** An operation can be renamed to a name that is taken: only one of the two is exported, and
nothing is said. -/
theorem C122_rename_taken_violated :
    let b := (Board.empty.add none 2 3 4 "a" newBuffer).add none 5 6 7 "u" newUnzip
    ((export_ reg1 b.graph "{}").map fun d => d.ops.names) = some ["a", "u"] ∧
      ((export_ reg1 (b.rename 5 "a").graph "{}").map fun d => d.ops.names) = some ["a"] := by
  decide +kernel

/-- **C122** A buffer can be connected to a section, but then the diagram cannot be exported
(export-diagram.ts:58-69). -/
theorem C122_buffer_section_violated :
    let b := ((Board.empty.add none 2 3 4 "b" newBuffer).add none 5 6 7 "s" newSection).connect
      0 2 .plain 5
    b.edges = [⟨0, 2, .plain, 5, .bufferSeq 0 .unset, some ""⟩] ∧
      export_ reg1 b.graph "{}" = none := by decide +kernel

/-- **C122** Of two buffers of a join one can be by index and one by key, but then the diagram cannot be
exported (export-diagram.ts:125-139). -/
theorem C122_mixed_buffers_violated :
    let b := ((Board.empty.add none 2 3 4 "a" newBuffer).add none 5 6 7 "b" newBuffer).add none 8 9 10
      "j" newJoin
    let c := ((b.connect 0 2 .plain 8).connect 1 5 .plain 8).field 1 (.byKey true)
    c.edges.length = 2 ∧ export_ reg1 c.graph "{}" = none := by decide +kernel

/-- **C122** Two edges that are drawn from an `unzip` are for the same output, and the first of them is not
exported. -/
theorem C122_same_output_violated :
    let b := ((Board.empty.add none 2 3 4 "u" newUnzip).add none 5 6 7 "a" newBuffer).add none 8 9 10
      "b" newBuffer
    let c := (b.connect 0 2 .plain 5).connect 1 2 .plain 8
    c.edges.length = 2 ∧ ((export_ reg1 c.graph "{}").bind fun d => (opAt d.ops [] "u").map (·.body)) =
      some (.unzip [some (.op "b")]) := by decide +kernel

end Verif.Editor
