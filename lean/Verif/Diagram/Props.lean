import Verif.Diagram.TemplateLemmas
import Verif.Diagram.Build

/-
C45, C46, C51: names, templates, buffer references and buffer types.
-/
namespace Verif.Diagram

/-! ### C45: names -/

/-- C45. Resolving a name through nested namespaces is associative: resolving it in the inner
namespaces and the result in the outer ones is resolving it in all of them. -/
theorem C45_assoc (outer inner : List Name) (r : Ref) :
    (r.inNs inner).inNs outer = r.inNs (outer ++ inner) := by
  cases r <;> simp [Ref.inNs]

/-- C45. A child of an operation names its sibling in the same way as its parent names that
child: both get the reference that the builder gives to the sibling. -/
theorem C45_child (ns : List Name) (id child : Name) :
    intoChildRef ns id (Ref.ofNext (.name child)) = opRef (childNs ns id) child ∧
    intoRef (childNs ns id) (Ref.ofNext (.name child)) = opRef (childNs ns id) child := by
  simp [intoChildRef, intoRef, Ref.ofNext, Ref.inNs, opRef, childNs]

/-- C45. Resolving names in the same namespaces is injective, except that there is only one
`dispose`: different names are never resolved to the same reference. -/
theorem C45_names (ns : List Name) (a b : Next)
    (h : intoRef ns (Ref.ofNext a) = intoRef ns (Ref.ofNext b)) : a = b := by
  cases a <;> cases b <;>
    simp only [intoRef, Ref.ofNext, Ref.inNs, Ref.named.injEq, List.append_nil, true_and,
      Option.some.injEq, reduceCtorEq, false_and, and_false] at h
  · rw [h]
  · rw [h.1, h.2]
  · rfl
  · rfl
  · rfl

/-- C45. Two operations of a diagram get the same internal reference only if they have the same
name and the same enclosing sections and scopes, and then they are the same operation. -/
theorem C45_operations {ts : List (Name × Template)} {ops : List (Name × Schema)}
    (hops : Distinct ops) (hts : ∀ n t, ts.lookup n = some t → Distinct t.ops)
    {ns ns' : List Name} {id id' : Name} {s s' : Schema}
    (h : At ts ops ns id s) (h' : At ts ops ns' id' s') (hr : opRef ns id = opRef ns' id') :
    ns = ns' ∧ id = id' ∧ s = s' := by
  simp only [opRef, Ref.named.injEq, true_and] at hr
  obtain ⟨rfl, rfl⟩ := hr
  exact ⟨rfl, rfl, (h.det hops hts).1 _ h'⟩

/-- A section `1` that is made from template `100`, and a scope `2`, both with an operation
`5`. -/
example : let ops := [(1, Schema.template 100 []),
      (2, .scope (.name 5) .terminate [] [(5, .forkClone [])])]
    let ts := [(100, (⟨[(5, .buffer true)], [], [], []⟩ : Template))]
    At ts ops [1] 5 (.buffer true) ∧ At ts ops [2] 5 (.forkClone []) ∧
      opRef [1] 5 ≠ opRef [2] 5 := by
  refine ⟨.inTemplate (name := 100) (c := []) (.root ?_) rfl (.head _),
    .inScope (start := .name 5) (next := .terminate) (streams := [])
      (inner := [(5, .forkClone [])]) (.root ?_) (.head _), ?_⟩
  · exact .head _
  · exact .tail _ (.head _)
  · decide

/-! ### C46: templates and buffer references -/

/-- C46. Validation of a template always ends, and returns an error exactly when following
section templates from it meets an unknown template or a cycle. -/
theorem C46_template (ts : List (Name × Template)) (a : Name) :
    checkTemplate ts a ≠ .error .fuel ∧
    (checkTemplate ts a = .ok () ↔ ¬ MeetsUnknown ts a ∧ ¬ MeetsCycle ts a) := by
  refine ⟨checkTemplate_ends a, ?_, ?_⟩
  · intro h
    have hg : Good ts [a] a := checkLoop_ok h ([a], a) (by simp)
    exact ⟨hg.known (by simp), hg.acyclic (by simp)⟩
  · rintro ⟨hu, hc⟩
    cases h : checkTemplate ts a with
    | ok u => rfl
    | error e =>
      rcases checkLoop_err (start := a) h (by
        intro q hq
        simp only [List.mem_singleton] at hq
        subst hq
        refine ⟨.refl, ?_⟩
        intro x hx
        simp only [List.mem_singleton] at hx
        subst hx
        exact ⟨.refl, .refl⟩) with rfl | ⟨b, _, h1, h2⟩ | ⟨_, h1⟩
      · exact absurd h (checkTemplate_ends a)
      · exact absurd ⟨b, h1, h2⟩ hu
      · exact absurd h1 hc

/-- C46. The error of the validation of a template tells the truth. -/
theorem C46_error (ts : List (Name × Template)) (a : Name) (e : Err)
    (h : checkTemplate ts a = .error e) :
    (∃ b, e = .unknownTemplate b ∧ Star (UsesTemplate ts) a b ∧ ts.lookup b = none) ∨
    (e = .circularTemplate ∧ MeetsCycle ts a) := by
  rcases checkLoop_err (start := a) h (by
    intro q hq
    simp only [List.mem_singleton] at hq
    subst hq
    refine ⟨.refl, ?_⟩
    intro x hx
    simp only [List.mem_singleton] at hx
    subst hx
    exact ⟨.refl, .refl⟩) with rfl | h | h
  · exact absurd h (checkTemplate_ends a)
  · exact .inl h
  · exact .inr h

/-- C46. The validation of a diagram succeeds exactly when this holds for every template that
is used by a section among its operations. -/
theorem C46_diagram (ts : List (Name × Template)) (ops : List (Name × Schema)) :
    validateUsage ts (directUses ops) = .ok () ↔
    ∀ id t c, (id, Schema.template t c) ∈ ops → ¬ MeetsUnknown ts t ∧ ¬ MeetsCycle ts t := by
  have key : ∀ l, validateUsage ts l = .ok () ↔
      ∀ t, t ∈ l → ¬ MeetsUnknown ts t ∧ ¬ MeetsCycle ts t := by
    intro l
    induction l with
    | nil => simp [validateUsage]
    | cons t rest ih =>
      simp only [validateUsage, List.mem_cons, forall_eq_or_imp]
      rw [← (C46_template ts t).2, ← ih]
      cases checkTemplate ts t with
      | error e => simp
      | ok u => simp
  rw [key]
  constructor
  · intro h id t c hm
    exact h t (mem_directUses.2 ⟨id, c, hm⟩)
  · intro h t ht
    obtain ⟨id, c, hm⟩ := mem_directUses.1 ht
    exact h id t c hm

/-- C46, violated: a template that is only used inside of a scope is not validated. Here
template `7` uses itself. -/
theorem C46_scope_violated : ∃ (ts : List (Name × Template)) (ops : List (Name × Schema)),
    validateUsage ts (directUses ops) = .ok () ∧ ∃ t, UsedIn t ops ∧ MeetsCycle ts t := by
  refine ⟨[(7, ⟨[(1, .template 7 [])], [], [], []⟩)],
    [(0, .scope (.name 1) .terminate [] [(1, .template 7 [])])], rfl, 7, ?_, ?_⟩
  · exact .inScope (List.mem_singleton.2 rfl) (.here (List.mem_singleton.2 rfl))
  · have h : UsesTemplate [(7, ⟨[(1, .template 7 [])], [], [], []⟩)] 7 7 :=
      ⟨_, rfl, 1, [], List.mem_singleton.2 rfl⟩
    exact ⟨7, 7, .refl, h, .refl⟩

/-- C46. Looking for a buffer always ends. It finds the buffer that the references lead to,
says that a buffer is missing when they lead to a name without a buffer, and says that they are
circular when they loop. -/
theorem C46_buffer (bufs : List (Ref × BufRef)) (r : Ref) :
    getBuffer bufs r ≠ .error .fuel ∧
    (∀ t, getBuffer bufs r = .ok t ↔
      ∃ r', Star (RefersTo bufs) r r' ∧ bufs.lookup r' = some (.value t)) ∧
    (getBuffer bufs r = .error .missing ↔
      ∃ r', Star (RefersTo bufs) r r' ∧ bufs.lookup r' = none) ∧
    (getBuffer bufs r = .error .circular ↔
      ∃ r' r'', Star (RefersTo bufs) r r' ∧ RefersTo bufs r' r'' ∧
        Star (RefersTo bufs) r'' r') := by
  -- where the references end, nothing else can be reached
  have stop : ∀ {x y : Ref}, (∀ z, ¬ RefersTo bufs x z) → Star (RefersTo bufs) x y → x = y := by
    intro x y hx h
    rcases h.cases_head' with h | ⟨z, hz, _⟩
    · exact h
    · exact absurd hz (hx z)
  have endV : ∀ {x : Ref} {t : Ty}, bufs.lookup x = some (.value t) →
      ∀ z, ¬ RefersTo bufs x z := by
    intro x t h z hz
    unfold RefersTo at hz
    rw [h] at hz
    cases hz
  have endN : ∀ {x : Ref}, bufs.lookup x = none → ∀ z, ¬ RefersTo bufs x z := by
    intro x h z hz
    unfold RefersTo at hz
    rw [h] at hz
    cases hz
  -- a path into a loop stays in the loop
  have loop : ∀ {x y z : Ref}, (∀ w, ¬ RefersTo bufs z w) → RefersTo bufs x y →
      Star (RefersTo bufs) y x → ¬ Star (RefersTo bufs) x z := by
    intro x y z hz hxy hyx h
    have hall : ∀ w, Star (RefersTo bufs) x w → Star (RefersTo bufs) w x := by
      intro w hw
      induction hw with
      | refl => exact .refl
      | tail _ hr ih =>
        rcases ih.cases_head' with rfl | ⟨v, h1, h2⟩
        · cases hr.det hxy
          exact hyx
        · cases hr.det h1
          exact h2
    have hzx := hall z h
    have := stop hz hzx
    subst this
    exact hz y hxy
  have cls : (∃ t r', Star (RefersTo bufs) r r' ∧ bufs.lookup r' = some (.value t) ∧
      getBuffer bufs r = .ok t) ∨
      (getBuffer bufs r = .error .missing ∧
        ∃ r', Star (RefersTo bufs) r r' ∧ bufs.lookup r' = none) ∨
      (getBuffer bufs r = .error .circular ∧ ∃ r' r'', Star (RefersTo bufs) r r' ∧
        RefersTo bufs r' r'' ∧ Star (RefersTo bufs) r'' r') := by
    cases h : getBuffer bufs r with
    | ok t =>
      obtain ⟨r', h1, h2⟩ := getBufferLoop_ok h
      exact .inl ⟨t, r', h1, h2, rfl⟩
    | error e =>
      cases e with
      | fuel => exact absurd h getBuffer_ends
      | missing => exact .inr (.inl ⟨rfl, getBufferLoop_missing h⟩)
      | circular => exact .inr (.inr ⟨rfl, getBufferLoop_circular h (by simp)⟩)
  refine ⟨getBuffer_ends, ?_, ?_, ?_⟩
  · intro t
    rcases cls with ⟨t', r', h1, h2, h3⟩ | ⟨h3, r', h1, h2⟩ | ⟨h3, r', r'', h1, h2, h4⟩
    · rw [h3]
      constructor
      · intro h; cases h; exact ⟨r', h1, h2⟩
      · rintro ⟨x, hx, hv⟩
        rcases RefersTo.meet h1 hx with h | h
        · cases stop (endV h2) h; rw [h2] at hv; cases hv; rfl
        · cases stop (endV hv) h; rw [h2] at hv; cases hv; rfl
    · rw [h3]
      constructor
      · intro h; cases h
      · rintro ⟨x, hx, hv⟩
        rcases RefersTo.meet h1 hx with h | h
        · cases stop (endN h2) h; rw [h2] at hv; cases hv
        · cases stop (endV hv) h; rw [h2] at hv; cases hv
    · rw [h3]
      constructor
      · intro h; cases h
      · rintro ⟨x, hx, hv⟩
        rcases RefersTo.meet h1 hx with h | h
        · exact absurd h (loop (endV hv) h2 h4)
        · cases stop (endV hv) h; exact absurd h2 (endV hv _)
  · rcases cls with ⟨t', r', h1, h2, h3⟩ | ⟨h3, r', h1, h2⟩ | ⟨h3, r', r'', h1, h2, h4⟩
    · rw [h3]
      constructor
      · intro h; cases h
      · rintro ⟨x, hx, hv⟩
        rcases RefersTo.meet h1 hx with h | h
        · cases stop (endV h2) h; rw [h2] at hv; cases hv
        · cases stop (endN hv) h; rw [h2] at hv; cases hv
    · exact ⟨fun _ => ⟨r', h1, h2⟩, fun _ => h3⟩
    · rw [h3]
      constructor
      · intro h; cases h
      · rintro ⟨x, hx, hv⟩
        rcases RefersTo.meet h1 hx with h | h
        · exact absurd h (loop (endN hv) h2 h4)
        · cases stop (endN hv) h; exact absurd h2 (endN hv _)
  · rcases cls with ⟨t', r', h1, h2, h3⟩ | ⟨h3, r', h1, h2⟩ | ⟨h3, r', r'', h1, h2, h4⟩
    · rw [h3]
      constructor
      · intro h; cases h
      · rintro ⟨x, y, hx, hxy, hyx⟩
        rcases RefersTo.meet h1 hx with h | h
        · cases stop (endV h2) h; exact absurd hxy (endV h2 _)
        · exact absurd h (loop (endV h2) hxy hyx)
    · rw [h3]
      constructor
      · intro h; cases h
      · rintro ⟨x, y, hx, hxy, hyx⟩
        rcases RefersTo.meet h1 hx with h | h
        · cases stop (endN h2) h; exact absurd hxy (endN h2 _)
        · exact absurd h (loop (endN h2) hxy hyx)
    · exact ⟨fun _ => ⟨r', r'', h1, h2, h4⟩, fun _ => h3⟩

/-- Templates `1 → 2 → 3`, all sound; `4 → 5 → 4`; and `6`, which uses an unknown one. -/
example :
    let t (n : Name) : Template := ⟨[(0, .template n []), (1, .forkClone [])], [], [], []⟩
    let ts := [(1, t 2), (2, t 3), (3, (⟨[], [], [], []⟩ : Template)), (4, t 5), (5, t 4),
      (6, t 9)]
    checkTemplate ts 1 = .ok () ∧ checkTemplate ts 4 = .error .circularTemplate ∧
      checkTemplate ts 6 = .error (.unknownTemplate 9) := by
  exact ⟨rfl, rfl, rfl⟩

/-- Exposed buffers that lead to a buffer, to nowhere, and around in a circle. -/
example :
    let bufs : List (Ref × BufRef) := [(.named [] (some 1) 2, .ref (.named [1] none 3)),
      (.named [1] none 3, .value 4), (.named [] (some 5) 2, .ref (.named [5] none 3)),
      (.named [] (some 6) 2, .ref (.named [6] (some 6) 2)),
      (.named [6] (some 6) 2, .ref (.named [] (some 6) 2))]
    getBuffer bufs (.named [] (some 1) 2) = .ok 4 ∧
      getBuffer bufs (.named [] (some 5) 2) = .error .missing ∧
      getBuffer bufs (.named [] (some 6) 2) = .error .circular := ⟨rfl, rfl, rfl⟩

/-! ### C51: buffer types -/

/-- C51. The type inferred from the hints is `t` exactly when there is an exact hint for `t`
and every exact hint is for `t`; nothing is inferred exactly when there is no exact hint; and
an inconsistency is reported exactly when there are two different exact hints. -/
theorem C51_hints (hints : List Hint) :
    (∀ t, inferFromHints hints = .ok (some t) ↔
      .exact t ∈ hints ∧ ∀ t', .exact t' ∈ hints → t' = t) ∧
    (inferFromHints hints = .ok none ↔ ∀ t, .exact t ∉ hints) ∧
    (inferFromHints hints = .error .inconsistentHints ↔
      ∃ t t', .exact t ∈ hints ∧ .exact t' ∈ hints ∧ t ≠ t') := by
  have mem : ∀ t, t ∈ hints.filterMap Hint.asExact ↔ .exact t ∈ hints := by
    intro t
    rw [List.mem_filterMap]
    constructor
    · rintro ⟨h, hm, ht⟩
      cases h with
      | exact t' => cases ht; exact hm
      | fallback t' => cases ht
    · intro h
      exact ⟨_, h, rfl⟩
  unfold inferFromHints
  cases hl : hints.filterMap Hint.asExact with
  | nil =>
    have no : ∀ t, .exact t ∉ hints := fun t ht => by
      have := (mem t).2 ht
      rw [hl] at this
      cases this
    refine ⟨fun t => ⟨fun h => (by cases h), fun h => absurd h.1 (no t)⟩,
      ⟨fun _ => no, fun _ => rfl⟩, ⟨fun h => (by cases h), ?_⟩⟩
    rintro ⟨t, _, h, _⟩
    exact absurd h (no t)
  | cons first rest =>
    have hf : .exact first ∈ hints := (mem first).1 (by rw [hl]; exact List.mem_cons_self)
    simp only
    split
    · rename_i hany
      obtain ⟨o, ho, hne⟩ := List.any_eq_true.1 hany
      have hne : o ≠ first := by simpa using hne
      have hoh : .exact o ∈ hints := (mem o).1 (by rw [hl]; exact ho)
      refine ⟨fun t => ⟨fun h => (by cases h), ?_⟩, ⟨fun h => (by cases h), ?_⟩,
        ⟨fun _ => ⟨o, first, hoh, hf, hne⟩, fun _ => rfl⟩⟩
      · rintro ⟨_, h⟩
        exact absurd ((h o hoh).trans (h first hf).symm) hne
      · intro h
        exact absurd hf (h first)
    · rename_i hany
      have all : ∀ t', .exact t' ∈ hints → t' = first := by
        intro t' ht'
        have hm := (mem t').2 ht'
        rw [hl] at hm
        apply Decidable.byContradiction
        intro hne
        exact hany (List.any_eq_true.2 ⟨t', hm, by simpa using hne⟩)
      refine ⟨fun t => ⟨?_, ?_⟩, ⟨fun h => (by cases h), ?_⟩, ⟨fun h => (by cases h), ?_⟩⟩
      · intro h; cases h; exact ⟨hf, all⟩
      · rintro ⟨h, _⟩; rw [all t h]
      · intro h; exact absurd hf (h first)
      · rintro ⟨t, t', h, h', hne⟩
        exact absurd ((all t h).trans (all t' h').symm) hne

/-- C51. What is inferred depends only on the set of the hints: not on their order, nor on how
often they were given. -/
theorem C51_order (hints hints' : List Hint) (h : ∀ x, x ∈ hints ↔ x ∈ hints') :
    inferFromHints hints = inferFromHints hints' := by
  obtain ⟨h1, h2, h3⟩ := C51_hints hints
  obtain ⟨g1, g2, g3⟩ := C51_hints hints'
  cases hr : inferFromHints hints with
  | ok o =>
    cases o with
    | none => exact ((g2.2 fun t ht => (h2.1 hr) t ((h _).2 ht))).symm
    | some t =>
      obtain ⟨a, b⟩ := (h1 t).1 hr
      exact ((g1 t).2 ⟨(h _).1 a, fun t' ht' => b t' ((h _).2 ht')⟩).symm
  | error e =>
    have he : e = .inconsistentHints := by
      unfold inferFromHints at hr
      split at hr
      · cases hr
      · split at hr
        · cases hr; rfl
        · cases hr
    subst he
    obtain ⟨t, t', a, b, c⟩ := h3.1 hr
    exact (g3.2 ⟨t, t', (h _).1 a, (h _).1 b, c⟩).symm

example : inferFromHints [.fallback 0, .exact 3, .fallback 7, .exact 3] = .ok (some 3) := rfl

example : inferFromHints [.fallback 0, .exact 3, .exact 4] = .error .inconsistentHints := rfl

end Verif.Diagram
