import Verif.Editor.DrawProps
import Verif.Editor.Witness
/-
Examples for C121, and graphs of which an edge is not exported, or that cannot be opened again.
-/
namespace Verif.Editor

/-- The place of an operation at the top. -/
def top (n : Name) : Key := ⟨[], n⟩

/-- An edge between two operations at the top. -/
def arrow (a b : Name) (kind : EdgeKind) : Edge := ⟨.op (top a), .op (top b), kind, none⟩

/-- Nodes that still have connections from before: `t` to an operation that is gone, `f` to `s`. -/
def drawnNodes : Nodes :=
  [(top "n", ⟨"config", .node "count" (.op "gone") [("old", .terminate)]⟩),
   (top "f", ⟨"", .forkClone [.op "s"]⟩),
   (top "b1", ⟨"", .buffer⟩),
   (top "b2", ⟨"", .buffer⟩),
   (top "j", ⟨"", .join (.dict [("x", .op "gone")]) none .cancel⟩),
   (top "s", ⟨"", .scope .dispose [] .dispose⟩),
   (⟨["s"], "t"⟩, ⟨"", .transform (.op "gone")⟩)]

/-- What is drawn between them. -/
def drawnEdges : List Edge :=
  [⟨.start none, .op (top "n"), .default, none⟩,
   arrow "n" "f" .default,
   arrow "n" "s" (.stream "ticks"),
   arrow "f" "b1" .default,
   arrow "f" "b2" .default,
   arrow "b1" "j" (.bufferSeq 0 .unset),
   arrow "b2" "j" (.bufferSeq 1 .unset),
   ⟨.op (top "j"), .terminate [], .default, none⟩,
   ⟨.start (some (top "s")), .op ⟨["s"], "t"⟩, .default, none⟩,
   ⟨.op ⟨["s"], "t"⟩, .terminate ["s"], .default, none⟩]

/-- The export of a graph. -/
def drawn (N : Nodes) (es : List Edge) : Option Diagram := export_ reg1 ⟨N, es⟩ "{}"

/-- The body of an operation in the export of a graph. -/
def drawnBody (N : Nodes) (es : List Edge) (n : Name) : Option Body :=
  ((drawn N es).bind fun d => opAt d.ops [] n).map (·.body)


/-- The hypothesis of `C121_drawn_only` is met by nodes of which one set has no connections. -/
example : ∃ N', SameNodes drawnNodes N' ∧ N' ≠ drawnNodes ∧
    drawn drawnNodes drawnEdges = drawn N' drawnEdges := by
  have h : SameNodes drawnNodes (cleared drawnNodes) := by
    simp [drawnNodes, cleared, SameNodes, SameSettings, Body.clear, Body.kind]
    rintro x y - - - - rfl - - rfl - -
    rfl
  exact ⟨_, h, by decide +kernel, C121_drawn_only reg1 _ _ drawnEdges "{}" h⟩

theorem drawnNodes_ok : NodesOk drawnNodes where
  uniq := by decide +kernel
  parent := by
    intro k o h r s hk
    simp only [drawnNodes, top, List.mem_cons, Prod.mk.injEq, List.not_mem_nil, or_false] at h
    rcases h with h | h | h | h | h | h | h <;> obtain ⟨rfl, rfl⟩ := h
    iterate 6 simp at hk
    obtain ⟨rfl, h3⟩ := List.append_inj' (s₁ := []) (t₁ := ["s"]) hk rfl
    cases h3
    exact ⟨_, List.mem_cons_of_mem _ (List.mem_cons_of_mem _ (List.mem_cons_of_mem _
      (List.mem_cons_of_mem _ (List.mem_cons_of_mem _ (List.mem_cons_self ..))))), rfl⟩

/-- The hypotheses of `C121_only_drawn` and `C121_operations` are met by a graph with nodes that have
other connections from before. -/
example : ∃ d, drawn drawnNodes drawnEdges = some d ∧
    (∀ ns n o, opAt d.ops ns n = some o → OnlyDrawn drawnEdges ⟨ns, n⟩ o.body) ∧
    ∃ o, opAt d.ops [] "n" = some o ∧ o.extra = "config" := by
  obtain ⟨d, hd⟩ : ∃ d, drawn drawnNodes drawnEdges = some d :=
    Option.isSome_iff_exists.1 (by decide +kernel)
  refine ⟨d, hd, (C121_only_drawn reg1 ⟨drawnNodes, drawnEdges⟩ "{}" d drawnNodes_ok hd).2, ?_⟩
  obtain ⟨o, h1, h2⟩ := (C121_operations reg1 ⟨drawnNodes, drawnEdges⟩ "{}" d drawnNodes_ok hd
    (top "n")).1 _ (List.mem_cons_self ..)
  exact ⟨o, h1, h2.1.symm⟩

theorem drawnEdges_allowed : ∀ e ∈ drawnEdges, Allowed drawnNodes e := by
  simp [drawnEdges, drawnNodes, arrow, Allowed, Nodes.kind, Nodes.get, top, Body.kind, allowedFrom]

theorem drawnEdges_apart : drawnEdges.Pairwise fun a b => ¬ Conflict drawnNodes a b := by
  simp [drawnEdges, drawnNodes, arrow, Conflict, Nodes.kind, Nodes.get, top, Body.kind,
    EdgeKind.buffer?]

theorem drawnEdges_known : ∀ e ∈ drawnEdges, KnownStream reg1 drawnNodes e := by
  intro e he s hs
  simp only [drawnEdges, arrow, List.mem_cons, List.not_mem_nil, or_false] at he
  rcases he with rfl | rfl | rfl | rfl | rfl | rfl | rfl | rfl | rfl | rfl <;> cases hs
  exact ⟨top "n", _, _, _, _, _, _, rfl, rfl, rfl, rfl⟩

/-- The hypotheses of `C121_every_edge_partial` are met by a graph with a scope, a join and a
stream. -/
example : ∃ d, drawn drawnNodes drawnEdges = some d ∧
    ∀ e ∈ drawnEdges, Exported d.start (opAt d.ops) e := by
  obtain ⟨d, hd⟩ : ∃ d, drawn drawnNodes drawnEdges = some d :=
    Option.isSome_iff_exists.1 (by decide +kernel)
  exact ⟨d, hd, fun e he => C121_every_edge_partial reg1 ⟨drawnNodes, drawnEdges⟩ "{}" d drawnNodes_ok
    drawnEdges_allowed drawnEdges_apart hd e he (drawnEdges_known e he)⟩

/-- What is exported. -/
def drawnDiagram : Diagram :=
  ⟨.op "n",
    .cons "n" ⟨"config", .node "count" (.op "f") [("ticks", .op "s")]⟩ .nil <|
    .cons "f" ⟨"", .forkClone [.op "b1", .op "b2"]⟩ .nil <|
    .cons "b1" ⟨"", .buffer⟩ .nil <|
    .cons "b2" ⟨"", .buffer⟩ .nil <|
    .cons "j" ⟨"", .join (.arr [some (.op "b1"), some (.op "b2")]) none .terminate⟩ .nil <|
    .cons "s" ⟨"", .scope .dispose [] (.op "t")⟩
      (.cons "t" ⟨"", .transform .terminate⟩ .nil .nil) .nil, "{}", none, none⟩

/-- The hypotheses of `C121_reopen_partial` are met by the same graph. -/
example : drawn drawnNodes drawnEdges = some drawnDiagram ∧
    ∃ d', roundTrip reg1 drawnDiagram = some d' ∧ SameDiagram drawnDiagram d' := by
  have hd : drawn drawnNodes drawnEdges = some drawnDiagram := by decide +kernel
  refine ⟨hd, C121_reopen_partial reg1 ⟨drawnNodes, drawnEdges⟩ "{}" _ drawnNodes_ok ?_ hd ?_⟩
  · simp [drawnEdges, arrow, EdgeOk, Id.ns, Key.inside, top]
  · intro ns n o h
    have hm := (mem_flatten (by simp [drawnDiagram, Forest.Uniq, Forest.names]) [] ⟨ns, n⟩ o).2
      ⟨ns, rfl, h⟩
    simp only [drawnDiagram, flatten, List.nil_append, List.cons_append, List.mem_cons,
      List.not_mem_nil, Prod.mk.injEq, or_false] at hm
    rcases hm with h | h | h | h | h | h | h <;> obtain ⟨_, rfl⟩ := h <;> simp [Filled, CloneOk]

/-- **C121** Of two edges for the same output of an `unzip`, only the last one is exported. The editor
lets any number of edges start at an `unzip` (utils/connection.ts:168), and all new ones are for output 0
(forms/edit-edge-form.tsx:48-70). -/
theorem C121_same_field_violated :
    let N : Nodes := [(top "u", ⟨"", .unzip []⟩), (top "a", ⟨"", .buffer⟩), (top "b", ⟨"", .buffer⟩)]
    let es := [arrow "u" "a" (.unzip 0), arrow "u" "b" (.unzip 0)]
    (∀ e ∈ es, Allowed N e) ∧ drawnBody N es "u" = some (.unzip [some (.op "b")]) := by
  refine ⟨?_, by decide +kernel⟩
  simp [arrow, Allowed, Nodes.kind, Nodes.get, top, Body.kind, allowedFrom]

/-- **C121** A stream can be drawn from a scope, but is not exported. -/
theorem C121_scope_stream_violated :
    let N : Nodes := [(top "s", ⟨"", .scope .dispose [] .dispose⟩), (top "b", ⟨"", .buffer⟩)]
    let es := [arrow "s" "b" (.stream "log")]
    (∀ e ∈ es, Allowed N e) ∧ drawnBody N es "s" = some (.scope .dispose [] .dispose) := by
  refine ⟨?_, by decide +kernel⟩
  simp [arrow, Allowed, Nodes.kind, Nodes.get, top, Body.kind, allowedFrom]

/-- **C121** An edge from outside a scope to an operation in it is exported as the name of that
operation. The diagram cannot be opened again; if there is another operation of that name next to the
scope, it is opened with the edge going there. -/
theorem C121_namespaces_violated :
    let N : Nodes := [(top "t", ⟨"", .transform .dispose⟩),
      (top "s", ⟨"", .scope .dispose [] .dispose⟩), (⟨["s"], "x"⟩, ⟨"", .buffer⟩)]
    let es : List Edge := [⟨.op (top "t"), .op ⟨["s"], "x"⟩, .default, none⟩]
    drawnBody N es "t" = some (.transform (.op "x")) ∧ (drawn N es).bind load = none ∧
      ((drawn ((top "x", ⟨"", .buffer⟩) :: N) es).bind load).map (·.edges) =
        some [arrow "t" "x" .default] := by decide +kernel

/-- **C121** An edge to an input of a section is exported with its input, but when the diagram is
opened again the edge has none. -/
theorem C121_section_violated :
    let N : Nodes := [(top "t", ⟨"", .transform .dispose⟩), (top "s", ⟨"", .sect []⟩)]
    let es : List Edge := [⟨.op (top "t"), .op (top "s"), .default, some "left"⟩]
    drawnBody N es "t" = some (.transform (.inner "s" "left")) ∧
      ((drawn N es).bind load).map (·.edges) = some [arrow "t" "s" .default] := by decide +kernel

/-- **C121** An `unzip` of which only the second output is drawn is exported with a hole, and the
diagram cannot be opened again. -/
theorem C121_holes_violated :
    let N : Nodes := [(top "u", ⟨"", .unzip []⟩)]
    let es : List Edge := [⟨.op (top "u"), .terminate [], .unzip 1, none⟩]
    drawnBody N es "u" = some (.unzip [none, some .terminate]) ∧
      (drawn N es).bind load = none := by decide +kernel

end Verif.Editor
