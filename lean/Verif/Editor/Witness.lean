import Verif.Editor.Props
/-
Examples for C120, and diagrams that the editor does not keep.
-/
namespace Verif.Editor

/-- A registry with one builder that has a stream. -/
def reg1 : Registry := fun b => if b = "count" then some ["ticks"] else none

/-- A diagram of operations in one map. -/
def flat (start : Next) (l : List (Name × Body)) : Diagram :=
  ⟨start, l.foldr (fun p f => .cons p.1 ⟨"{}", p.2⟩ .nil f) .nil, "{}", none, none⟩

/-- The body of an operation after a round trip, if it succeeds. -/
def after (d : Diagram) (n : Name) : Option Body :=
  ((roundTrip reg1 d).bind fun d' => opAt d'.ops [] n).map (·.body)

/-- A diagram with most kinds of operations, and a scope in a scope. -/
def sample : Diagram where
  start := .op "n"
  ops :=
    .cons "n" ⟨"config", .node "count" (.op "f") [("ticks", .op "sc")]⟩ .nil <|
    .cons "f" ⟨"", .forkClone [.op "b1", .op "b2", .terminate]⟩ .nil <|
    .cons "b1" ⟨"", .buffer⟩ .nil <|
    .cons "b2" ⟨"", .buffer⟩ .nil <|
    .cons "j" ⟨"", .join (.arr [some (.op "b1"), some (.op "b2")]) (some [.idx 0]) (.op "sp")⟩ .nil <|
    .cons "sp" ⟨"", .split [("x", .op "u")] [.dispose, .op "u"] (some .terminate)⟩ .nil <|
    .cons "u" ⟨"", .unzip [some (.op "sc"), some .terminate]⟩ .nil <|
    .cons "sc" ⟨"title", .scope .dispose [] (.op "in")⟩
      (.cons "in" ⟨"", .scope .terminate [] (.op "t")⟩
        (.cons "t" ⟨"", .transform .terminate⟩ .nil .nil) .nil) .nil
  templates := "{}"
  defaultTrace := none
  onImplicitError := none

instance (near : Name → Option Op) : (t : Next) → Decidable (Drawn near t)
  | .op n => inferInstanceAs (Decidable ((near n).isSome = true))
  | .terminate => .isTrue trivial
  | .dispose => .isFalse id
  | .cancel => .isFalse id
  | .inner _ _ => .isFalse id

/-- The operations of `sample`. -/
theorem sample_ops {ns : List Name} {n : Name} {o : Op} (h : opAt sample.ops ns n = some o) :
    (⟨ns, n⟩, o) ∈ flatten [] sample.ops :=
  (mem_flatten (by simp [sample, Forest.Uniq, Forest.names]) [] ⟨ns, n⟩ o).2 ⟨ns, rfl, h⟩

/-- The hypothesis of `C120_round_trip_partial` is met by a diagram with nested scopes. -/
theorem sample_editable : Editable reg1 sample where
  uniq := by simp [sample, Forest.Uniq, Forest.names]
  scopes := by
    intro ns n m h
    obtain ⟨o, ho⟩ := Option.isSome_iff_exists.1 h
    have := sample_ops ho
    simp only [sample, flatten, List.nil_append, List.cons_append,
      List.mem_cons, List.not_mem_nil, Prod.mk.injEq, Key.mk.injEq, or_false] at this
    have key : ∀ x, ns ++ [n] = x → x = [] ∨ x = ["sc"] ∨ x = ["sc", "in"] →
        ∃ o, opAt sample.ops ns n = some o ∧ o.body.kind = .scope := by
      rintro x h1 (h2 | h2 | h2)
      · rw [h2] at h1; simp at h1
      · rw [h2] at h1
        obtain ⟨rfl, h3⟩ := List.append_inj' (t₁ := [n]) (s₂ := []) (t₂ := ["sc"]) h1 rfl
        cases h3
        exact ⟨_, rfl, rfl⟩
      · rw [h2] at h1
        obtain ⟨rfl, h3⟩ := List.append_inj' (t₁ := [n]) (s₂ := ["sc"]) (t₂ := ["in"]) h1 rfl
        cases h3
        exact ⟨_, rfl, rfl⟩
    rcases this with h | h | h | h | h | h | h | h | h | h <;>
      exact key _ h.1.1 (by simp)
  bodies := by
    intro ns n o h
    have := sample_ops h
    simp only [sample, flatten, List.nil_append, List.cons_append,
      List.mem_cons, List.not_mem_nil, Prod.mk.injEq, Key.mk.injEq, or_false] at this
    rcases this with h | h | h | h | h | h | h | h | h | h <;> obtain ⟨⟨rfl, rfl⟩, rfl⟩ := h <;>
      simp [BodyOk, DrawnOrDispose, Drawn, DrawnMap, BuffersOk, CloneOk, IsBuffer, opAt, sample,
        reg1]
    · exact ⟨1, by simp, by simp, rfl⟩
  start := .inl (by simp [Drawn, opAt, sample])
  defaultTrace := rfl
  onImplicitError := rfl

/-- `C120_round_trip_partial` for `sample`; the operations come out in the opposite order. -/
example : ∃ d', roundTrip reg1 sample = some d' ∧ SameDiagram sample d' ∧ d' ≠ sample := by
  obtain ⟨d', h1, h2⟩ := C120_round_trip_partial reg1 sample sample_editable
  refine ⟨d', h1, h2, ?_⟩
  rintro rfl
  exact absurd h1 (by decide +kernel)

/-- **C120** An edge to a named input of a section loses the name: the target `{"s": "left"}` comes
back as `"s"`. -/
theorem C120_section_input_violated :
    let d := flat (.op "t") [("t", .transform (.inner "s" "left")), ("s", .sect [])]
    after d "t" = some (.transform (.op "s")) := by decide +kernel

/-- **C120** A diagram that starts at a named input of a section comes back starting nowhere. -/
theorem C120_section_start_violated :
    let d := flat (.inner "s" "left") [("s", .sect [])]
    (roundTrip reg1 d).map (·.start) = some .dispose := by decide +kernel

/-- **C120** A diagram that listens to a buffer of a section can be loaded, but not exported. -/
theorem C120_section_buffer_violated :
    let d := flat .dispose [("l", .listen (.arr [some (.inner "s" "buf")]) .dispose), ("s", .sect [])]
    (load d).isSome = true ∧ roundTrip reg1 d = none := by decide +kernel

/-- **C120** `{"builtin": "cancel"}` comes back as `{"builtin": "dispose"}`: what
should cancel the workflow is ignored. -/
theorem C120_cancel_violated :
    let d := flat (.op "r") [("r", .forkResult .terminate .cancel)]
    after d "r" = some (.forkResult .terminate .dispose) := by decide +kernel

/-- **C120** A `dispose` in an `unzip` comes back as a hole, and what is exported cannot be loaded
again; at the end of an `unzip` it is gone, so that the number of outputs is another one. -/
theorem C120_unzip_violated :
    let d := flat (.op "u") [("u", .unzip [some .dispose, some .terminate])]
    let e := flat (.op "u") [("u", .unzip [some .terminate, some .dispose])]
    after d "u" = some (.unzip [none, some .terminate]) ∧
      ((roundTrip reg1 d).bind load).isSome = false ∧
      after e "u" = some (.unzip [some .terminate]) := by decide +kernel

/-- **C120** A `dispose` at the end of the sequence of a `split` is gone: its element goes to
`remaining`. -/
theorem C120_split_violated :
    let d := flat (.op "s") [("s", .split [] [.terminate, .dispose] (some .terminate))]
    after d "s" = some (.split [] [.terminate] (some .terminate)) := by decide +kernel

/-- **C120** A `fork_clone` with the same target twice comes back with it once: it sends one message
instead of two. -/
theorem C120_fork_violated :
    let d := flat (.op "f") [("f", .forkClone [.op "b", .op "b"]), ("b", .buffer)]
    after d "f" = some (.forkClone [.op "b"]) := by decide +kernel

/-- **C120** A join that clones by key comes back as one that pulls; one that clones the second of
its buffers comes back cloning the first. -/
theorem C120_clone_violated :
    let d := flat .dispose [("j", .join (.dict [("a", .op "b1"), ("c", .op "b2")])
      (some [.key "a"]) .terminate), ("b1", .buffer), ("b2", .buffer)]
    let e := flat .dispose [("j", .join (.arr [some (.op "b1"), some (.op "b2")])
      (some [.idx 1]) .terminate), ("b1", .buffer), ("b2", .buffer)]
    after d "j" = some (.join (.dict [("a", .op "b1"), ("c", .op "b2")]) none .terminate) ∧
      after e "j" = some (.join (.arr [some (.op "b1"), some (.op "b2")])
        (some [.idx 0]) .terminate) := by decide +kernel

/-- **C120** A join that clones one key comes back cloning another one, if that is called like
something that every array has. -/
theorem C120_clone_name_violated :
    let d := flat .dispose [("j", .join (.dict [("a", .op "b1"), ("values", .op "b2")])
      (some [.key "a"]) .terminate), ("b1", .buffer), ("b2", .buffer)]
    after d "j" = some (.join (.dict [("a", .op "b1"), ("values", .op "b2")])
      (some [.key "values"]) .terminate) := by decide +kernel

/-- **C120** The streams of a scope are gone, and so are those of a node whose builder is not in the
registry. -/
theorem C120_streams_violated :
    let d := flat .dispose [("s", .scope .terminate [("log", .op "b")] .terminate), ("b", .buffer)]
    let e := flat .dispose [("n", .node "other" .terminate [("log", .op "b")]), ("b", .buffer)]
    after d "s" = some (.scope .terminate [] .terminate) ∧
      after e "n" = some (.node "other" .terminate []) := by decide +kernel

/-- The hypothesis of `C120_settings_violated` is met. -/
example : ∀ d', roundTrip reg1 { sample with onImplicitError := some (.op "n") } = some d' →
    ¬ SameDiagram { sample with onImplicitError := some (.op "n") } d' :=
  C120_settings_violated reg1 _ (.inr nofun)

end Verif.Editor
