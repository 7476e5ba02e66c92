import Verif.File.Lemmas3

/-
C115: a diagram that is saved and loaded again.
C116: keys of a diagram file that the format does not know.
-/
namespace Verif.File

/-- C115: a diagram of a supported version that is written and read again is the same diagram,
unless one of its targets is an operation with the name of a builtin target in a namespace that
is called `builtin`. -/
theorem C115_saved_partial {S : Semver} (d : Diagram S) (h : d.Clear) :
    fromJson S d.toJson = some d :=
  readDiagram_write _ d h (Nat.le_refl _)

/-- C115: a diagram that was read is written and read again as the same diagram. -/
theorem C115_loaded {S : Semver} (j : Json) (d : Diagram S) (h : fromJson S j = some d) :
    fromJson S d.toJson = some d :=
  C115_saved_partial d (readDiagram_clear _ j d h)

/-- C115: the same through text, if the written value is nested less than 128 deep. -/
theorem C115_text_partial {S : Semver} (d : Diagram S) (h : d.Clear) (hd : d.toJson.depth < 128) :
    fromText S d.toJson = some d := by
  unfold fromText
  rw [if_pos hd, C115_saved_partial d h]

/-- C115, without condition on the targets it is false: an operation `dispose` in a namespace
`builtin` is read as the builtin target. -/
theorem C115_builtin_violated (S : Semver) (v : S.Version) (hv : S.supported v = true) (b : Builtin) :
    ∃ d d' : Diagram S, d.start = .inside "builtin" b.name ∧ d'.start = .builtin b ∧
      fromJson S d.toJson = some d' := by
  refine ⟨bare S v (.inside "builtin" b.name), bare S v (.builtin b), rfl, rfl, ?_⟩
  have e : (bare S v (.inside "builtin" b.name)).toJson = (bare S v (.builtin b)).toJson := rfl
  rw [e]
  refine C115_saved_partial _ ⟨hv, empty_map _, trivial, ?_, empty_map _⟩
  intro x hx
  cases hx

/-- C115, without condition on the depth the one through text is false: a stream out inside of
`n` scopes is read again from its text if and only if `n` is less than 63. -/
theorem C115_depth_violated (S : Semver) (v : S.Version) (hv : S.supported v = true)
    (s : String) (n : Nat) :
    fromText S (only S v (nested (.streamOut s) n)).toJson =
      if n < 63 then some (only S v (nested (.streamOut s) n)) else none := by
  have hd : (only S v (nested (.streamOut s) n)).toJson.depth = 3 + 2 * n := by
    rw [only_depth, nested_depth]
    have : (Op.write (.streamOut s)).depth = 1 := rfl
    omega
  unfold fromText
  rw [hd, C115_saved_partial _ (only_clear S v hv _ (nested_clear _ .streamOut n))]
  by_cases hn : n < 63
  · rw [if_pos hn, if_pos (by omega)]
  · rw [if_neg hn, if_neg (by omega)]

/-- C115: also a diagram that was read from a text may not be read again from the text that is
written for it, because the settings that the text left out are written. -/
theorem C115_reload_violated (S : Semver) (v : S.Version) (hv : S.supported v = true) :
    ∃ (j : Json) (d : Diagram S), fromText S j = some d ∧ fromText S d.toJson = none := by
  refine ⟨onlyText (S.print v) (nestedText (.obj [("type", .str "buffer")]) 62),
    only S v (nested (.buffer (.keepLast 1) none ⟨none, none⟩) 62), ?_, ?_⟩
  · have h1 : (Json.obj [("type", .str "buffer")]).depth = 1 := rfl
    have h2 := nestedText_depth (.obj [("type", .str "buffer")]) 62
    have hd := onlyText_depth (S.print v) (nestedText (.obj [("type", .str "buffer")]) 62)
    have hr : readOp 63 (.obj [("type", .str "buffer")]) =
      some (.buffer (.keepLast 1) none ⟨none, none⟩) := rfl
    have hn := nestedText_read _ _ 63 hr 62
    unfold fromText
    rw [if_pos (by omega)]
    exact onlyText_read S v hv _ _ 125 hn (by omega)
  · have h1 : (Op.write (.buffer (.keepLast 1) none ⟨none, none⟩)).depth = 3 := rfl
    unfold fromText
    rw [if_neg]
    rw [only_depth, nested_depth]
    omega

/-- C116: an entry of a diagram whose key is none of its keys changes nothing. -/
theorem C116_diagram (S : Semver) (a b : List (String × Json)) (k : String) (v : Json)
    (h : k ∉ diagramKeys) :
    fromJson S (.obj (a ++ (k, v) :: b)) = fromJson S (.obj (a ++ b)) := by
  unfold fromJson
  rw [readDiagram_depth S (Json.obj (a ++ b)).depth (Json.obj (a ++ (k, v) :: b)).depth _
    (Nat.le_refl _) (depth_extra a b _)]
  simp only [diagramKeys, List.mem_cons, List.not_mem_nil, or_false, not_or] at h
  unfold readDiagram
  simp [req_extra, opt_extra, h]

/-- C116: an entry of an operation whose key has no meaning for its type changes nothing, neither
the operation nor a scope that it is in. -/
theorem C116_operation (j j' : Json) (h : Padded j j') : readOperation j' = readOperation j := by
  unfold readOperation
  rw [readOp_depth j'.depth (max j.depth j'.depth) j' (by omega) (by omega),
    readOp_depth j.depth (max j.depth j'.depth) j (by omega) (by omega)]
  exact (readOp_padded h _ (by omega) (by omega)).symm

/-- C116: nor a diagram that it is in. -/
theorem C116_operation_diagram (S : Semver) (j j' : Json) (h : Padded j j')
    (a b x y : List (String × Json)) (name : String) :
    fromJson S (.obj (a ++ ("ops", .obj (x ++ (name, j') :: y)) :: b)) =
      fromJson S (.obj (a ++ ("ops", .obj (x ++ (name, j) :: y)) :: b)) := by
  have d1 := depth_inside a b x y "ops" name j
  have d2 := depth_inside a b x y "ops" name j'
  unfold fromJson
  generalize hJ : Json.obj (a ++ ("ops", .obj (x ++ (name, j) :: y)) :: b) = J at *
  generalize hJ' : Json.obj (a ++ ("ops", .obj (x ++ (name, j') :: y)) :: b) = J' at *
  rw [readDiagram_depth S J'.depth (max J.depth J'.depth) J' (by omega) (by omega),
    readDiagram_depth S J.depth (max J.depth J'.depth) J (by omega) (by omega)]
  have hq := readOp_padded h (max J.depth J'.depth) (by omega) (by omega)
  generalize max J.depth J'.depth = n at *
  subst hJ hJ'
  have hr : ∀ {β : Type} (k : String) (read : Json → Option β), "ops" ≠ k →
      req (a ++ ("ops", .obj (x ++ (name, j') :: y)) :: b) k read =
        req (a ++ ("ops", .obj (x ++ (name, j) :: y)) :: b) k read :=
    fun k read hk => req_replace a b k _ _ _ read fun e => absurd e hk
  have ho : ∀ {β : Type} (k : String) (read : Json → Option β) (d : β), "ops" ≠ k →
      opt (a ++ ("ops", .obj (x ++ (name, j') :: y)) :: b) k read d =
        opt (a ++ ("ops", .obj (x ++ (name, j) :: y)) :: b) k read d :=
    fun k read d hk => opt_replace a b k _ _ _ read d hk
  have hm : req (a ++ ("ops", .obj (x ++ (name, j') :: y)) :: b) "ops" (readMap (readOp n)) =
      req (a ++ ("ops", .obj (x ++ (name, j) :: y)) :: b) "ops" (readMap (readOp n)) :=
    req_replace a b _ _ _ _ _ fun _ => readEntries_replace _ _ _ hq.symm name y x []
  rw [readDiagram, readDiagram, hm, hr "version" _ (by decide), hr "start" _ (by decide),
    ho "templates" _ _ (by decide), ho "on_implicit_error" _ _ (by decide),
    ho "default_trace" _ _ (by decide)]

/-- C116: an operation that does not have one of the keys it needs exactly once is refused. -/
theorem C116_required (m : List (String × Json)) (type k : String) (r : List String)
    (ht : req m "type" readStr = some type) (hr : requiredKeys.lookup type = some r) (hk : k ∈ r)
    (hm : (m.filter (·.1 == k)).length ≠ 1) : readOperation (.obj m) = none := by
  unfold readOperation
  show readOp (depthEntries _ + 1) _ = _
  rw [readOp]
  rw [ht]
  exact readFields_missing _ m type k r hr hk hm

/-- C116: an operation that does not have exactly one type is refused. -/
theorem C116_untyped (m : List (String × Json)) (hm : (m.filter (·.1 == "type")).length ≠ 1) :
    readOperation (.obj m) = none := by
  unfold readOperation
  show readOp (depthEntries _ + 1) _ = _
  rw [readOp, req_notOne m _ _ hm]
  rfl

/-- C116: a type that is not known is refused. -/
theorem C116_type (m : List (String × Json)) (type : String)
    (ht : req m "type" readStr = some type) (hr : requiredKeys.lookup type = none) :
    readOperation (.obj m) = none := by
  unfold readOperation
  show readOp (depthEntries _ + 1) _ = _
  rw [readOp]
  rw [ht]
  exact readFields_unknown _ m type hr

/-- C116: hence not every entry of a file has an effect: an optional key that is misspelt is read
as if it were not there, and its operation has the default. -/
theorem C116_misspelt_violated :
    ∃ (j : Json) (x : Next),
      readOperation (.obj [("type", .str "node"), ("builder", .str "a"), ("next", .str "b"),
        ("stream_outs", j)]) = some (.node "a" .null (.name "b") [] ⟨none, none⟩) ∧
      readOperation (.obj [("type", .str "node"), ("builder", .str "a"), ("next", .str "b"),
        ("stream_out", j)]) = some (.node "a" .null (.name "b") [("s", x)] ⟨none, none⟩) :=
  ⟨.obj [("s", .str "c")], .name "c", rfl, rfl⟩

/-! Examples. -/

/-- Versions that are their own text, of which one is supported. -/
def exampleVersions : Semver :=
  { Version := String, parse := some, print := id, supported := (· == "0.1.0"),
    parse_print := fun _ => rfl }

/-- A diagram with a template, a scope with a buffer, a join and a fork. -/
def exampleDiagram : Diagram exampleVersions where
  version := "0.1.0"
  templates := [("t", ⟨.remap [("in", .name "x")], ["out"], .forward ["buf"],
    [("x", .node "b" (.obj [("k", .nat 3)]) (.name "out") [] ⟨none, none⟩)]⟩)]
  start := .name "s"
  onError := some (.builtin .cancel)
  ops := [("s", .scope (.name "f") none
      [("f", .forkClone [.name "buf", .inside "section" "in"] ⟨some "Fork", some .messages⟩),
       ("buf", .buffer (.keepFirst 4) (some true) ⟨none, some .on⟩),
       ("j", .join (.builtin .terminate) (.dict [("a", .name "buf")]) [.name "a"] true)]
      [("progress", .builtin .dispose)] (.name "u") true),
    ("section", .sect (.template "t") .null [("out", .builtin .dispose)] ⟨none, none⟩),
    ("u", .split [.name "v"] [("k", .name "w")] none ⟨none, none⟩)]
  trace := .messages

theorem exampleDiagram_clear : exampleDiagram.Clear where
  version := rfl
  templates := by
    refine ⟨by decide, fun p hp => ?_⟩
    rw [List.mem_singleton.mp hp]
    refine ⟨⟨by decide, fun q hq => ?_⟩, trivial, by decide, fun q hq => ?_⟩
    · rw [List.mem_singleton.mp hq]; trivial
    · rw [List.mem_singleton.mp hq]; exact .node trivial (empty_map _)
  start := trivial
  onError := fun x hx => by injection hx with hx; subst hx; trivial
  ops := by
    refine ⟨by decide, fun p hp => ?_⟩
    simp only [exampleDiagram, List.mem_cons, List.not_mem_nil, or_false] at hp
    rcases hp with rfl | rfl | rfl
    · refine .scope trivial (fun x hx => by cases hx) (by decide) ?_ ⟨by decide, ?_⟩ trivial
      · intro q hq
        simp only [List.mem_cons, List.not_mem_nil, or_false] at hq
        rcases hq with rfl | rfl | rfl
        · refine .forkClone fun n hn => ?_
          simp only [List.mem_cons, List.not_mem_nil, or_false] at hn
          rcases hn with rfl | rfl
          · trivial
          · exact fun e => absurd e (by decide)
        · exact .buffer
        · exact .join trivial ⟨by decide, fun q hq => by rw [List.mem_singleton.mp hq]; trivial⟩
      · intro q hq; rw [List.mem_singleton.mp hq]; trivial
    · exact .sect ⟨by decide, fun q hq => by rw [List.mem_singleton.mp hq]; trivial⟩
    · refine .split (fun n hn => ?_) ⟨by decide, fun q hq => ?_⟩ (fun x hx => by cases hx)
      · rw [List.mem_singleton.mp hn]; trivial
      · rw [List.mem_singleton.mp hq]; trivial

example : fromJson exampleVersions exampleDiagram.toJson = some exampleDiagram :=
  C115_saved_partial _ exampleDiagram_clear

example : fromText exampleVersions exampleDiagram.toJson = some exampleDiagram :=
  C115_text_partial _ exampleDiagram_clear (by decide)

/-- The hypothesis of `C115_loaded`: a text that leaves most fields out. -/
example : fromJson exampleVersions (.obj [("version", .str "0.1.0"), ("start", .str "a"),
    ("ops", .obj [("a", .obj [("next", .obj [("builtin", .str "dispose"), ("note", .str "x")]),
      ("builder", .str "b"), ("type", .str "node")])])]) =
    some (only exampleVersions "0.1.0" (.node "b" .null (.builtin .dispose) [] ⟨none, none⟩)) := rfl

/-- Another version is refused. -/
example : fromJson exampleVersions (bare exampleVersions "0.2.0" (.name "a")).toJson = none := rfl

example : fromText exampleVersions
    (only exampleVersions "0.1.0" (nested (.streamOut "s") 63)).toJson = none :=
  C115_depth_violated exampleVersions "0.1.0" rfl "s" 63

/-- `C116_operation`, for an operation in a scope. -/
example (v : Json) : readOperation (aroundText (.obj [("type", .str "listen"), ("next", .str "x"),
      ("buffers", .arr [.str "y"]), ("trace", v)])) =
    readOperation (aroundText (.obj [("type", .str "listen"), ("next", .str "x"),
      ("buffers", .arr [.str "y"])])) := by
  refine C116_operation _ _ (.inside [("type", .str "scope"), ("start", .str "a")]
    [("next", .obj [("builtin", .str "terminate")])] [] [] "a" ?_)
  refine Padded.here (a := [("type", .str "listen"), ("next", .str "x"),
      ("buffers", .arr [.str "y"])]) (b := []) (type := "listen") (k := "trace") v rfl ?_
  rintro (h | ⟨l, hl, h⟩ | ⟨l, hl, h⟩)
  · exact absurd h (by decide)
  · injection hl with hl; subst hl; exact absurd h (by decide)
  · injection hl with hl; subst hl; exact absurd h (by decide)

example : "note" ∉ diagramKeys := by decide

/-- `C116_required`: the operation has no `next`. -/
example : readOperation (.obj [("type", .str "node"), ("builder", .str "b"),
    ("nxt", .str "x")]) = none :=
  C116_required _ "node" "next" ["builder", "next"] rfl rfl (by decide) (by simp)

/-- `C116_required`: the operation has two of them. -/
example : readOperation (.obj [("type", .str "node"), ("builder", .str "b"),
    ("next", .str "x"), ("next", .str "x")]) = none :=
  C116_required _ "node" "next" ["builder", "next"] rfl rfl (by decide) (by simp)

example : readOperation (.obj [("builder", .str "b"), ("next", .str "x")]) = none :=
  C116_untyped _ (by simp)

example : readOperation (.obj [("type", .str "loop")]) = none := C116_type _ "loop" rfl rfl

end Verif.File
