import Verif.File.Lemmas2

/-
Whole diagrams, keys without meaning, and nested scopes.
-/
set_option linter.unusedSimpArgs false
namespace Verif.File

variable {α : Type}

theorem depth_ops (m : List (String × Json)) (k : String) (ops : List (String × Op))
    (h : (k, Json.obj (writeOps ops)) ∈ m) :
    depthEntries (writeOps ops) + 1 ≤ depthEntries m := by
  have := depthEntries_mem m _ h
  rw [Json.depth] at this
  exact this

theorem readRemapping_write (r : Remapping) (h : r.Clear) : readRemapping r.write = some r := by
  unfold readRemapping Remapping.write
  cases r with
  | forward l => dsimp only; rw [readList_str l]; rfl
  | remap m => dsimp only; rw [readMap_next m h]; rfl

theorem readTemplate_write (n : Nat) (t : Template) (h : t.Clear) (hd : t.write.depth ≤ n) :
    readTemplate n t.write = some t := by
  have e1 := readRemapping_write t.inputs h.inputs
  have e2 := readList_str t.outputs
  have e3 := readRemapping_write t.buffers h.buffers
  have e4 : readMap (readOp n) (.obj (writeOps t.ops)) = some t.ops := by
    rw [Template.write, Json.depth] at hd
    have := depth_ops _ "ops" t.ops (show _ ∈ [("inputs", t.inputs.write),
      ("outputs", writeList Json.str t.outputs), ("buffers", t.buffers.write),
      ("ops", .obj (writeOps t.ops))] by simp)
    exact readOps_write n t.ops h.ops.1 (by omega) fun p hp hq => readOp_write n p.2 (h.ops.2 p hp) hq
  unfold Template.write readTemplate
  simp [req, opt, field, e1, e2, e3, e4]

theorem readVersion_print (S : Semver) (v : S.Version) (h : S.supported v = true) :
    readVersion S (.str (S.print v)) = some v := by
  simp [readVersion, readStr, S.parse_print, h]

theorem readDiagram_write {S : Semver} (n : Nat) (d : Diagram S) (h : d.Clear)
    (hd : d.toJson.depth ≤ n) : readDiagram S n d.toJson = some d := by
  have e0 := readVersion_print S d.version h.version
  rw [Diagram.toJson, Json.depth] at hd
  have e1 : readMap (readTemplate n) (writeMap Template.write d.templates) = some d.templates := by
    refine readMap_write _ _ _ h.templates.1 fun p hp => ?_
    refine readTemplate_write n p.2 (h.templates.2 p hp) ?_
    have h1 := depthEntries_mem _ ("templates", writeMap Template.write d.templates)
      (show _ ∈ ([("version", .str (S.print d.version)),
        ("templates", writeMap Template.write d.templates),
        ("start", d.start.write), ("on_implicit_error", writeOption Next.write d.onError),
        ("ops", .obj (writeOps d.ops))] ++
        skipIf (d.trace == .off) "default_trace" d.trace.write) by simp)
    have h2 := depthEntries_mem (d.templates.map (fun p => (p.1, p.2.write))) (p.1, p.2.write)
      (List.mem_map.mpr ⟨p, hp, rfl⟩)
    have h3 : (writeMap Template.write d.templates).depth =
      depthEntries (d.templates.map (fun p => (p.1, p.2.write))) + 1 := by rw [writeMap, Json.depth]
    dsimp only at h1 h2
    omega
  have e2 := readNext_write d.start h.start
  have e3 := readNullable_next d.onError h.onError
  have e4 : readMap (readOp n) (.obj (writeOps d.ops)) = some d.ops := by
    have := depth_ops _ "ops" d.ops (show _ ∈ ([("version", .str (S.print d.version)),
        ("templates", writeMap Template.write d.templates),
        ("start", d.start.write), ("on_implicit_error", writeOption Next.write d.onError),
        ("ops", .obj (writeOps d.ops))] ++
        skipIf (d.trace == .off) "default_trace" d.trace.write) by simp)
    exact readOps_write n d.ops h.ops.1 (by omega) fun p hp hq => readOp_write n p.2 (h.ops.2 p hp) hq
  have e5 := readUnit_toggle d.trace
  unfold Diagram.toJson readDiagram
  obtain ⟨v, ts, s, oe, ops, tr⟩ := d
  dsimp only at *
  cases ht : tr == Toggle.off
  · simp [skipIf, req, opt, field, e0, e1, e2, e3, e4, e5]
  · have := eq_of_beq ht
    subst this
    simp [skipIf, req, opt, field, e0, e1, e2, e3, e4]

theorem readTemplate_clear (n : Nat) (j : Json) (t : Template) (h : readTemplate n j = some t) :
    t.Clear := by
  unfold readTemplate at h
  split at h
  · simp only [bind, pure, Option.bind_eq_some_iff] at h
    obtain ⟨_, h1, _, _, _, h2, _, h3, h⟩ := h
    injection h with h; subst h
    exact ⟨opt_of Remapping.Clear readRemapping_clear (show Remapping.Clear (.forward []) from trivial) h1,
      opt_of Remapping.Clear readRemapping_clear (show Remapping.Clear (.forward []) from trivial) h2,
      req_of (MapOf Op.Clear) (fun j a => readMap_of Op.Clear _ j a (readOp_clear n)) h3⟩
  · cases h

theorem readDiagram_clear {S : Semver} (n : Nat) (j : Json) (d : Diagram S)
    (h : readDiagram S n j = some d) : d.Clear := by
  unfold readDiagram at h
  split at h
  · simp only [bind, pure, Option.bind_eq_some_iff] at h
    obtain ⟨_, h1, _, h2, _, h3, _, h4, _, h5, _, _, h⟩ := h
    injection h with h; subst h
    refine ⟨?_, ?_, ?_, ?_, ?_⟩
    · refine req_of (fun v => S.supported v = true) (fun j v hv => ?_) h1
      unfold readVersion at hv
      obtain ⟨s, _, hv⟩ := Option.bind_eq_some_iff.mp hv
      obtain ⟨w, _, hv⟩ := Option.bind_eq_some_iff.mp hv
      split at hv
      · injection hv with hv; subst hv; assumption
      · cases hv
    · exact opt_of (MapOf Template.Clear)
        (fun j a => readMap_of Template.Clear _ j a (readTemplate_clear n)) (empty_map _) h2
    · exact req_of Next.Clear readNext_clear h3
    · exact opt_of (fun a => ∀ x, a = some x → Next.Clear x)
        (readNullable_of Next.Clear readNext readNext_clear) (fun x hx => by cases hx) h4
    · exact req_of (MapOf Op.Clear) (fun j a => readMap_of Op.Clear _ j a (readOp_clear n)) h5
  · cases h

theorem field_extra (a b : List (String × Json)) (k x : String) (v : Json) (h : x ≠ k) :
    field (a ++ (x, v) :: b) k = field (a ++ b) k := by
  unfold field
  rw [List.filter_append, List.filter_append, List.filter_cons_of_neg (by simpa using h)]

theorem req_extra (a b : List (String × Json)) (k x : String) (v : Json)
    (read : Json → Option α) (h : x ≠ k) : req (a ++ (x, v) :: b) k read = req (a ++ b) k read := by
  unfold req; rw [field_extra a b k x v h]

theorem opt_extra (a b : List (String × Json)) (k x : String) (v : Json)
    (read : Json → Option α) (d : α) (h : x ≠ k) :
    opt (a ++ (x, v) :: b) k read d = opt (a ++ b) k read d := by
  unfold opt; rw [field_extra a b k x v h]

theorem readTracing_extra (a b : List (String × Json)) (x : String) (v : Json)
    (h1 : x ≠ "display_text") (h2 : x ≠ "trace") :
    readTracing (a ++ (x, v) :: b) = readTracing (a ++ b) := by
  unfold readTracing
  rw [opt_extra _ _ _ _ _ _ _ h1, opt_extra _ _ _ _ _ _ _ h2]

theorem readProvider_extra (a b : List (String × Json)) (x : String) (v : Json)
    (h1 : x ≠ "builder") (h2 : x ≠ "template") :
    readProvider (a ++ (x, v) :: b) = readProvider (a ++ b) := by
  unfold readProvider
  rw [List.find?_append, List.find?_append, List.find?_cons_of_neg (by simp [h1, h2])]

theorem meant_of {type k : String} (h : ¬ Meant type k) (r o : List String)
    (hr : requiredKeys.lookup type = some r) (ho : optionalKeys.lookup type = some o) :
    (∀ x ∈ r, k ≠ x) ∧ ∀ x ∈ o, k ≠ x :=
  ⟨fun _ hx e => h (Or.inr (Or.inl ⟨r, hr, e ▸ hx⟩)),
    fun _ hx e => h (Or.inr (Or.inr ⟨o, ho, e ▸ hx⟩))⟩

theorem readFields_extra (inner : Json → Option Op) (a b : List (String × Json)) (type k : String)
    (v : Json) (h : ¬ Meant type k) :
    readFields inner (a ++ (k, v) :: b) type = readFields inner (a ++ b) type := by
  unfold readFields
  by_cases c : (type == "node") = true
  · have := eq_of_beq c; subst this
    obtain ⟨h1, h2⟩ := meant_of h _ _ rfl rfl
    simp only [List.mem_cons, List.not_mem_nil, or_false, forall_eq_or_imp, forall_eq,
      false_imp_iff, implies_true, ne_eq] at h1 h2
    rw [if_pos c, if_pos c]
    simp [req_extra, opt_extra, readTracing_extra, readProvider_extra, h1, h2]
  rw [if_neg c, if_neg c]; clear c
  by_cases c : (type == "section") = true
  · have := eq_of_beq c; subst this
    obtain ⟨h1, h2⟩ := meant_of h _ _ rfl rfl
    simp only [List.mem_cons, List.not_mem_nil, or_false, forall_eq_or_imp, forall_eq,
      false_imp_iff, implies_true, ne_eq] at h1 h2
    rw [if_pos c, if_pos c]
    simp [req_extra, opt_extra, readTracing_extra, readProvider_extra, h1, h2]
  rw [if_neg c, if_neg c]; clear c
  by_cases c : (type == "scope") = true
  · have := eq_of_beq c; subst this
    obtain ⟨h1, h2⟩ := meant_of h _ _ rfl rfl
    simp only [List.mem_cons, List.not_mem_nil, or_false, forall_eq_or_imp, forall_eq,
      false_imp_iff, implies_true, ne_eq] at h1 h2
    rw [if_pos c, if_pos c]
    simp [req_extra, opt_extra, readTracing_extra, readProvider_extra, h1, h2]
  rw [if_neg c, if_neg c]; clear c
  by_cases c : (type == "stream_out") = true
  · have := eq_of_beq c; subst this
    obtain ⟨h1, h2⟩ := meant_of h _ _ rfl rfl
    simp only [List.mem_cons, List.not_mem_nil, or_false, forall_eq_or_imp, forall_eq,
      false_imp_iff, implies_true, ne_eq] at h1 h2
    rw [if_pos c, if_pos c]
    simp [req_extra, opt_extra, readTracing_extra, readProvider_extra, h1, h2]
  rw [if_neg c, if_neg c]; clear c
  by_cases c : (type == "fork_clone") = true
  · have := eq_of_beq c; subst this
    obtain ⟨h1, h2⟩ := meant_of h _ _ rfl rfl
    simp only [List.mem_cons, List.not_mem_nil, or_false, forall_eq_or_imp, forall_eq,
      false_imp_iff, implies_true, ne_eq] at h1 h2
    rw [if_pos c, if_pos c]
    simp [req_extra, opt_extra, readTracing_extra, readProvider_extra, h1, h2]
  rw [if_neg c, if_neg c]; clear c
  by_cases c : (type == "unzip") = true
  · have := eq_of_beq c; subst this
    obtain ⟨h1, h2⟩ := meant_of h _ _ rfl rfl
    simp only [List.mem_cons, List.not_mem_nil, or_false, forall_eq_or_imp, forall_eq,
      false_imp_iff, implies_true, ne_eq] at h1 h2
    rw [if_pos c, if_pos c]
    simp [req_extra, opt_extra, readTracing_extra, readProvider_extra, h1, h2]
  rw [if_neg c, if_neg c]; clear c
  by_cases c : (type == "fork_result") = true
  · have := eq_of_beq c; subst this
    obtain ⟨h1, h2⟩ := meant_of h _ _ rfl rfl
    simp only [List.mem_cons, List.not_mem_nil, or_false, forall_eq_or_imp, forall_eq,
      false_imp_iff, implies_true, ne_eq] at h1 h2
    rw [if_pos c, if_pos c]
    simp [req_extra, opt_extra, readTracing_extra, readProvider_extra, h1, h2]
  rw [if_neg c, if_neg c]; clear c
  by_cases c : (type == "split") = true
  · have := eq_of_beq c; subst this
    obtain ⟨h1, h2⟩ := meant_of h _ _ rfl rfl
    simp only [List.mem_cons, List.not_mem_nil, or_false, forall_eq_or_imp, forall_eq,
      false_imp_iff, implies_true, ne_eq] at h1 h2
    rw [if_pos c, if_pos c]
    simp [req_extra, opt_extra, readTracing_extra, readProvider_extra, h1, h2]
  rw [if_neg c, if_neg c]; clear c
  by_cases c : (type == "join") = true
  · have := eq_of_beq c; subst this
    obtain ⟨h1, h2⟩ := meant_of h _ _ rfl rfl
    simp only [List.mem_cons, List.not_mem_nil, or_false, forall_eq_or_imp, forall_eq,
      false_imp_iff, implies_true, ne_eq] at h1 h2
    rw [if_pos c, if_pos c]
    simp [req_extra, opt_extra, readTracing_extra, readProvider_extra, h1, h2]
  rw [if_neg c, if_neg c]; clear c
  by_cases c : (type == "transform") = true
  · have := eq_of_beq c; subst this
    obtain ⟨h1, h2⟩ := meant_of h _ _ rfl rfl
    simp only [List.mem_cons, List.not_mem_nil, or_false, forall_eq_or_imp, forall_eq,
      false_imp_iff, implies_true, ne_eq] at h1 h2
    rw [if_pos c, if_pos c]
    simp [req_extra, opt_extra, readTracing_extra, readProvider_extra, h1, h2]
  rw [if_neg c, if_neg c]; clear c
  by_cases c : (type == "buffer") = true
  · have := eq_of_beq c; subst this
    obtain ⟨h1, h2⟩ := meant_of h _ _ rfl rfl
    simp only [List.mem_cons, List.not_mem_nil, or_false, forall_eq_or_imp, forall_eq,
      false_imp_iff, implies_true, ne_eq] at h1 h2
    rw [if_pos c, if_pos c]
    simp [req_extra, opt_extra, readTracing_extra, readProvider_extra, h1, h2]
  rw [if_neg c, if_neg c]; clear c
  by_cases c : (type == "buffer_access") = true
  · have := eq_of_beq c; subst this
    obtain ⟨h1, h2⟩ := meant_of h _ _ rfl rfl
    simp only [List.mem_cons, List.not_mem_nil, or_false, forall_eq_or_imp, forall_eq,
      false_imp_iff, implies_true, ne_eq] at h1 h2
    rw [if_pos c, if_pos c]
    simp [req_extra, opt_extra, readTracing_extra, readProvider_extra, h1, h2]
  rw [if_neg c, if_neg c]; clear c
  by_cases c : (type == "listen") = true
  · have := eq_of_beq c; subst this
    obtain ⟨h1, h2⟩ := meant_of h _ _ rfl rfl
    simp only [List.mem_cons, List.not_mem_nil, or_false, forall_eq_or_imp, forall_eq,
      false_imp_iff, implies_true, ne_eq] at h1 h2
    rw [if_pos c, if_pos c]
    simp [req_extra, opt_extra, readTracing_extra, readProvider_extra, h1, h2]
  rw [if_neg c, if_neg c]

theorem req_notOne (m : List (String × Json)) (k : String) (read : Json → Option α)
    (h : (m.filter (·.1 == k)).length ≠ 1) : req m k read = none := by
  unfold req field
  generalize m.filter (·.1 == k) = l at *
  match l with
  | [] => rfl
  | [p] => exact absurd rfl h
  | _ :: _ :: _ => rfl

theorem readFields_missing (inner : Json → Option Op) (m : List (String × Json)) (type k : String)
    (r : List String) (hr : requiredKeys.lookup type = some r) (hk : k ∈ r)
    (hm : (m.filter (·.1 == k)).length ≠ 1) : readFields inner m type = none := by
  have none_ : ∀ {α : Type} (read : Json → Option α), req m k read = none :=
    fun read => req_notOne m k read hm
  unfold readFields
  by_cases c : (type == "node") = true
  · have := eq_of_beq c; subst this
    injection hr with hr; subst hr
    rw [if_pos c]
    simp only [List.mem_cons, List.not_mem_nil, or_false] at hk
    rcases hk with rfl | rfl <;> simp [none_]
  rw [if_neg c]; clear c
  by_cases c : (type == "section") = true
  · have := eq_of_beq c; subst this
    injection hr with hr; subst hr
    rw [if_pos c]
    simp only [List.mem_cons, List.not_mem_nil, or_false] at hk
  rw [if_neg c]; clear c
  by_cases c : (type == "scope") = true
  · have := eq_of_beq c; subst this
    injection hr with hr; subst hr
    rw [if_pos c]
    simp only [List.mem_cons, List.not_mem_nil, or_false] at hk
    rcases hk with rfl | rfl | rfl <;> simp [none_]
  rw [if_neg c]; clear c
  by_cases c : (type == "stream_out") = true
  · have := eq_of_beq c; subst this
    injection hr with hr; subst hr
    rw [if_pos c]
    simp only [List.mem_cons, List.not_mem_nil, or_false] at hk
    subst hk; simp [none_]
  rw [if_neg c]; clear c
  by_cases c : (type == "fork_clone") = true
  · have := eq_of_beq c; subst this
    injection hr with hr; subst hr
    rw [if_pos c]
    simp only [List.mem_cons, List.not_mem_nil, or_false] at hk
    subst hk; simp [none_]
  rw [if_neg c]; clear c
  by_cases c : (type == "unzip") = true
  · have := eq_of_beq c; subst this
    injection hr with hr; subst hr
    rw [if_pos c]
    simp only [List.mem_cons, List.not_mem_nil, or_false] at hk
    subst hk; simp [none_]
  rw [if_neg c]; clear c
  by_cases c : (type == "fork_result") = true
  · have := eq_of_beq c; subst this
    injection hr with hr; subst hr
    rw [if_pos c]
    simp only [List.mem_cons, List.not_mem_nil, or_false] at hk
    rcases hk with rfl | rfl <;> simp [none_]
  rw [if_neg c]; clear c
  by_cases c : (type == "split") = true
  · have := eq_of_beq c; subst this
    injection hr with hr; subst hr
    rw [if_pos c]
    simp only [List.mem_cons, List.not_mem_nil, or_false] at hk
  rw [if_neg c]; clear c
  by_cases c : (type == "join") = true
  · have := eq_of_beq c; subst this
    injection hr with hr; subst hr
    rw [if_pos c]
    simp only [List.mem_cons, List.not_mem_nil, or_false] at hk
    rcases hk with rfl | rfl <;> simp [none_]
  rw [if_neg c]; clear c
  by_cases c : (type == "transform") = true
  · have := eq_of_beq c; subst this
    injection hr with hr; subst hr
    rw [if_pos c]
    simp only [List.mem_cons, List.not_mem_nil, or_false] at hk
    rcases hk with rfl | rfl <;> simp [none_]
  rw [if_neg c]; clear c
  by_cases c : (type == "buffer") = true
  · have := eq_of_beq c; subst this
    injection hr with hr; subst hr
    rw [if_pos c]
    simp only [List.mem_cons, List.not_mem_nil, or_false] at hk
  rw [if_neg c]; clear c
  by_cases c : (type == "buffer_access") = true
  · have := eq_of_beq c; subst this
    injection hr with hr; subst hr
    rw [if_pos c]
    simp only [List.mem_cons, List.not_mem_nil, or_false] at hk
    rcases hk with rfl | rfl <;> simp [none_]
  rw [if_neg c]; clear c
  by_cases c : (type == "listen") = true
  · have := eq_of_beq c; subst this
    injection hr with hr; subst hr
    rw [if_pos c]
    simp only [List.mem_cons, List.not_mem_nil, or_false] at hk
    rcases hk with rfl | rfl <;> simp [none_]
  rw [if_neg c]

theorem readFields_unknown (inner : Json → Option Op) (m : List (String × Json)) (type : String)
    (hr : requiredKeys.lookup type = none) : readFields inner m type = none := by
  unfold readFields
  by_cases c : (type == "node") = true
  · have := eq_of_beq c; subst this
    exact absurd hr (by decide)
  rw [if_neg c]; clear c
  by_cases c : (type == "section") = true
  · have := eq_of_beq c; subst this
    exact absurd hr (by decide)
  rw [if_neg c]; clear c
  by_cases c : (type == "scope") = true
  · have := eq_of_beq c; subst this
    exact absurd hr (by decide)
  rw [if_neg c]; clear c
  by_cases c : (type == "stream_out") = true
  · have := eq_of_beq c; subst this
    exact absurd hr (by decide)
  rw [if_neg c]; clear c
  by_cases c : (type == "fork_clone") = true
  · have := eq_of_beq c; subst this
    exact absurd hr (by decide)
  rw [if_neg c]; clear c
  by_cases c : (type == "unzip") = true
  · have := eq_of_beq c; subst this
    exact absurd hr (by decide)
  rw [if_neg c]; clear c
  by_cases c : (type == "fork_result") = true
  · have := eq_of_beq c; subst this
    exact absurd hr (by decide)
  rw [if_neg c]; clear c
  by_cases c : (type == "split") = true
  · have := eq_of_beq c; subst this
    exact absurd hr (by decide)
  rw [if_neg c]; clear c
  by_cases c : (type == "join") = true
  · have := eq_of_beq c; subst this
    exact absurd hr (by decide)
  rw [if_neg c]; clear c
  by_cases c : (type == "transform") = true
  · have := eq_of_beq c; subst this
    exact absurd hr (by decide)
  rw [if_neg c]; clear c
  by_cases c : (type == "buffer") = true
  · have := eq_of_beq c; subst this
    exact absurd hr (by decide)
  rw [if_neg c]; clear c
  by_cases c : (type == "buffer_access") = true
  · have := eq_of_beq c; subst this
    exact absurd hr (by decide)
  rw [if_neg c]; clear c
  by_cases c : (type == "listen") = true
  · have := eq_of_beq c; subst this
    exact absurd hr (by decide)
  rw [if_neg c]

theorem readTemplate_depth (n k : Nat) (j : Json) (h : j.depth ≤ n) (hk : j.depth ≤ k) :
    readTemplate n j = readTemplate k j := by
  unfold readTemplate
  cases j with
  | obj m =>
    dsimp only
    rw [Json.depth] at h hk
    rw [req_congr (readMap (readOp n)) (readMap (readOp k)) m "ops" fun v hv =>
      readMap_congr _ _ (depthEntries m) (fun j hj => readOp_depth n k j (by omega) (by omega)) v
        (by omega)]
  | _ => rfl

/-- The number in `readDiagram` is no bound either. -/
theorem readDiagram_depth (S : Semver) (n k : Nat) (j : Json) (h : j.depth ≤ n) (hk : j.depth ≤ k) :
    readDiagram S n j = readDiagram S k j := by
  unfold readDiagram
  cases j with
  | obj m =>
    dsimp only
    rw [Json.depth] at h hk
    rw [req_congr (readMap (readOp n)) (readMap (readOp k)) m "ops" fun v hv =>
      readMap_congr _ _ (depthEntries m) (fun j hj => readOp_depth n k j (by omega) (by omega)) v
        (by omega),
      opt_congr (readMap (readTemplate n)) (readMap (readTemplate k)) m "templates" [] fun v hv =>
      readMap_congr _ _ (depthEntries m) (fun j hj => readTemplate_depth n k j (by omega) (by omega)) v
        (by omega)]
  | _ => rfl

theorem depthEntries_append : ∀ a b : List (String × Json),
    depthEntries (a ++ b) = max (depthEntries a) (depthEntries b) := by
  intro a
  induction a with
  | nil => intro b; simp [depthEntries]
  | cons p a ih => intro b; simp only [List.cons_append, depthEntries, ih]; omega

theorem depth_extra (a b : List (String × Json)) (p : String × Json) :
    (Json.obj (a ++ b)).depth ≤ (Json.obj (a ++ p :: b)).depth := by
  simp only [Json.depth, depthEntries_append, depthEntries]; omega

theorem field_replace (a b : List (String × Json)) (k x : String) (v w : Json) (h : x ≠ k) :
    field (a ++ (x, v) :: b) k = field (a ++ (x, w) :: b) k := by
  rw [field_extra a b k x v h, field_extra a b k x w h]

theorem req_replace (a b : List (String × Json)) (k x : String) (v w : Json)
    (read : Json → Option α) (h : x = k → read v = read w) :
    req (a ++ (x, v) :: b) k read = req (a ++ (x, w) :: b) k read := by
  unfold req
  by_cases e : x = k
  · subst e
    unfold field
    simp only [List.filter_append, List.filter_cons, beq_self_eq_true, if_true]
    cases a.filter (·.1 == x) with
    | nil =>
      cases b.filter (·.1 == x) with
      | nil => exact h rfl
      | cons q l => rfl
    | cons p l => cases l <;> rfl
  · rw [field_replace a b k x v w e]

theorem opt_replace (a b : List (String × Json)) (k x : String) (v w : Json)
    (read : Json → Option α) (d : α) (h : x ≠ k) :
    opt (a ++ (x, v) :: b) k read d = opt (a ++ (x, w) :: b) k read d := by
  unfold opt
  rw [field_replace a b k x v w h]

theorem readTracing_replace (a b : List (String × Json)) (x : String) (v w : Json)
    (h1 : x ≠ "display_text") (h2 : x ≠ "trace") :
    readTracing (a ++ (x, v) :: b) = readTracing (a ++ (x, w) :: b) := by
  rw [readTracing_extra a b x v h1 h2, readTracing_extra a b x w h1 h2]

theorem readProvider_replace (a b : List (String × Json)) (x : String) (v w : Json)
    (h1 : x ≠ "builder") (h2 : x ≠ "template") :
    readProvider (a ++ (x, v) :: b) = readProvider (a ++ (x, w) :: b) := by
  rw [readProvider_extra a b x v h1 h2, readProvider_extra a b x w h1 h2]

theorem readEntries_replace (read : Json → Option α) (v w : Json) (h : read v = read w)
    (k : String) (y : List (String × Json)) : ∀ (x : List (String × Json)) (acc : List (String × α)),
    readEntries read (x ++ (k, v) :: y) acc = readEntries read (x ++ (k, w) :: y) acc := by
  intro x
  induction x with
  | nil => intro acc; rw [List.nil_append, List.nil_append, readEntries, readEntries, h]
  | cons p x ih =>
    intro acc
    obtain ⟨l, j⟩ := p
    rw [List.cons_append, List.cons_append, readEntries, readEntries]
    congr 1
    funext a
    exact ih _

/-- Only the operations of a scope are read by the operation that holds them. -/
theorem readFields_replace (inner : Json → Option Op) (a b : List (String × Json)) (type : String)
    (v w : Json) (h : readMap inner v = readMap inner w) :
    readFields inner (a ++ ("ops", v) :: b) type = readFields inner (a ++ ("ops", w) :: b) type := by
  have hr : ∀ {β : Type} (k : String) (read : Json → Option β), "ops" ≠ k →
      req (a ++ ("ops", v) :: b) k read = req (a ++ ("ops", w) :: b) k read :=
    fun k read hk => req_replace a b k _ v w read fun e => absurd e hk
  have ho : ∀ {β : Type} (k : String) (read : Json → Option β) (d : β), "ops" ≠ k →
      opt (a ++ ("ops", v) :: b) k read d = opt (a ++ ("ops", w) :: b) k read d :=
    fun k read d hk => opt_replace a b k _ v w read d hk
  have hm : req (a ++ ("ops", v) :: b) "ops" (readMap inner) =
      req (a ++ ("ops", w) :: b) "ops" (readMap inner) :=
    req_replace a b _ _ v w _ fun _ => h
  have ht := readTracing_replace a b "ops" v w (by decide) (by decide)
  have hp := readProvider_replace a b "ops" v w (by decide) (by decide)
  unfold readFields
  rw [ht, hp, hm]
  simp only [hr "builder" readStr (by decide), hr "next" readNext (by decide),
    hr "start" readNext (by decide), hr "name" readStr (by decide),
    hr "next" (readList readNext) (by decide), hr "ok" readNext (by decide),
    hr "err" readNext (by decide), hr "buffers" readSelection (by decide),
    hr "cel" readStr (by decide), ho "config" readJson _ (by decide),
    ho "stream_out" (readMap readNext) _ (by decide), ho "connect" (readMap readNext) _ (by decide),
    ho "on_implicit_error" (readNullable readNext) _ (by decide),
    ho "settings" readScopeSettings _ (by decide), ho "settings" readSettings _ (by decide),
    ho "sequential" (readList readNext) _ (by decide), ho "keyed" (readMap readNext) _ (by decide),
    ho "remaining" (readNullable readNext) _ (by decide),
    ho "clone" (readList readIdent) _ (by decide), ho "serialize" readBool _ (by decide),
    ho "on_error" (readNullable readNext) _ (by decide),
    ho "serialize" (readNullable readBool) _ (by decide)]

theorem depth_inside (a b x y : List (String × Json)) (k name : String) (j : Json) :
    j.depth + 2 ≤ (Json.obj (a ++ (k, .obj (x ++ (name, j) :: y)) :: b)).depth := by
  simp only [Json.depth, depthEntries_append, depthEntries, depthEntry]
  omega

theorem readOp_padded {j j' : Json} (h : Padded j j') : ∀ n, j.depth ≤ n → j'.depth ≤ n →
    readOp n j = readOp n j' := by
  induction h with
  | @here a b type k v ht hk =>
    intro n h1 _
    cases n with
    | zero => rw [Json.depth] at h1; omega
    | succ n =>
      rw [readOp, readOp, req_extra a b _ _ _ _ (fun e => hk (Or.inl e)), ht]
      exact (readFields_extra _ a b type k v hk).symm
  | @inside j j' a b x y name _ ih =>
    intro n h1 h2
    have d1 := depth_inside a b x y "ops" name j
    have d2 := depth_inside a b x y "ops" name j'
    cases n with
    | zero => omega
    | succ n =>
      rw [readOp, readOp, req_replace a b "type" "ops" _ (.obj (x ++ (name, j') :: y)) _
        (fun e => absurd e (by decide))]
      congr 1
      funext type
      apply readFields_replace
      exact readEntries_replace _ _ _ (ih n (by omega) (by omega)) name y x []

theorem nested_clear (o : Op) (h : o.Clear) : ∀ n, (nested o n).Clear := by
  intro n
  induction n with
  | zero => exact h
  | succ n ih =>
    refine .scope trivial (fun x hx => by cases hx) (by simp) ?_ (empty_map _) trivial
    intro p hp
    rw [List.mem_singleton.mp hp]; exact ih

theorem nested_depth (o : Op) :
    ∀ n, (nested o n).write.depth = o.write.depth + 2 * n := by
  intro n
  induction n with
  | zero => rfl
  | succ n ih =>
    show (around (nested o n)).write.depth = _
    simp [around, Op.write, Json.depth, depthEntries, depthEntry, writeOps, writeEntry, ih,
      Next.write, writeOption, writeMap, writeScopeSettings]
    omega

theorem only_clear (S : Semver) (v : S.Version) (hv : S.supported v = true) (o : Op) (h : o.Clear) :
    (only S v o).Clear where
  version := hv
  templates := empty_map _
  start := trivial
  onError := fun x hx => by cases hx
  ops := by
    refine ⟨by simp [only], fun p hp => ?_⟩
    rw [List.mem_singleton.mp hp]
    exact h

theorem only_depth (S : Semver) (v : S.Version) (o : Op) :
    (only S v o).toJson.depth = o.write.depth + 2 := by
  simp [only, Diagram.toJson, Json.depth, depthEntries, depthEntry, writeOps, writeEntry,
    Next.write, writeOption, writeMap, skipIf]

theorem nestedText_depth (j : Json) :
    ∀ n, (nestedText j n).depth = j.depth + 2 * n := by
  intro n
  induction n with
  | zero => rfl
  | succ n ih =>
    show (aroundText (nestedText j n)).depth = _
    simp [aroundText, Json.depth, depthEntries, depthEntry, ih]
    omega

theorem onlyText_depth (v : String) (j : Json) : (onlyText v j).depth = j.depth + 2 := by
  simp [onlyText, Json.depth, depthEntries, depthEntry]

theorem nestedText_read (j : Json) (o : Op) (k : Nat) (h : readOp k j = some o) :
    ∀ n, readOp (k + n) (nestedText j n) = some (nested o n) := by
  intro n
  induction n with
  | zero => exact h
  | succ n ih =>
    show readOp (k + n + 1) (aroundText (nestedText j n)) = some (around (nested o n))
    have e : readMap (readOp (k + n)) (.obj [("a", nestedText j n)]) =
        some [("a", nested o n)] := by
      simp [readMap, readEntries, ih, insert]
    have e1 : readNext (.str "a") = some (.name "a") := rfl
    have e2 : readNext (.obj [("builtin", .str "terminate")]) = some (.builtin .terminate) := rfl
    unfold aroundText readOp
    simp [readFields, req, opt, field, readStr, e, e1, e2, around]

theorem onlyText_read (S : Semver) (v : S.Version) (hv : S.supported v = true) (j : Json) (o : Op)
    (n : Nat) (h : readOp n j = some o) (hd : j.depth ≤ n) :
    fromJson S (onlyText (S.print v) j) = some (only S v o) := by
  unfold fromJson
  rw [readDiagram_depth S _ (n + 2) _ (Nat.le_refl _) (by rw [onlyText_depth]; omega)]
  have h' : readOp (n + 2) j = some o := by rw [readOp_depth (n + 2) n j (by omega) hd, h]
  have e : readMap (readOp (n + 2)) (.obj [("a", j)]) = some [("a", o)] := by
    simp [readMap, readEntries, h', insert]
  have e1 : readNext (.str "a") = some (.name "a") := rfl
  have e0 := readVersion_print S v hv
  unfold onlyText readDiagram
  simp [req, opt, field, e, e1, e0, only]

end Verif.File
