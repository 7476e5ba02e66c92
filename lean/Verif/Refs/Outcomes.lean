import Verif.Refs.Layouts

/-
What turning a map of buffers into a layout gives, the hints of a layout, joins of
several buffers and joined JSON messages.
-/
set_option linter.unusedSectionVars false

namespace Verif.Refs

open Verif.Buffer (Storage)
open Verif.Views (Box Serde)

section
variable {E Ty : Type} [DecidableEq E] [DecidableEq Ty]

/-! ### Layouts -/

theorem needs_nodup {m : BufMap E Ty} (hd : m.Distinct) {l : Layout Ty} (hl : l.Proper) :
    ((needs m l).map (·.1)).Nodup := by
  cases l with
  | map =>
    simp only [needs, List.map_map]
    exact hd
  | single k => simp [needs]
  | vec k =>
    simp only [needs, List.map_map]
    rw [List.nodup_iff_pairwise_ne, List.pairwise_map]
    refine List.Pairwise.imp ?_ (List.nodup_range (n := m.length))
    intro a b h e
    simp only [Function.comp, Ident.index.injEq] at e
    exact h e
  | jsonMap =>
    simp only [needs, List.map_map]
    exact (List.Sublist.map _ (List.filter_sublist (l := m))).nodup hd
  | jsonAny =>
    simp only [needs, List.map_map]
    exact hd
  | fields fs =>
    simp only [needs, List.map_map]
    rw [List.nodup_iff_pairwise_ne, List.pairwise_map]
    have : (fs.map (·.1)).Nodup := hl
    rw [List.nodup_iff_pairwise_ne, List.pairwise_map] at this
    refine List.Pairwise.imp ?_ this
    intro a b h e
    simp only [Function.comp, Ident.name.injEq] at e
    exact h e

theorem kind_unique {ns : List (Ident × Kind Ty)} (h : (ns.map (·.1)).Nodup) {i : Ident}
    {k k' : Kind Ty} (h1 : (i, k) ∈ ns) (h2 : (i, k') ∈ ns) : k = k' := by
  induction ns with
  | nil => simp at h1
  | cons q ns ih =>
    rw [List.map_cons, List.nodup_cons] at h
    rcases List.mem_cons.1 h1 with e1 | h1
    · rcases List.mem_cons.1 h2 with e2 | h2
      · rw [← e1] at e2
        simp only [Prod.mk.injEq] at e2
        exact e2.2.symm
      · exact absurd (by rw [← e1]; exact List.mem_map_of_mem (f := (·.1)) h2) h.1
    · rcases List.mem_cons.1 h2 with e2 | h2
      · exact absurd (by rw [← e2]; exact List.mem_map_of_mem (f := (·.1)) h1) h.1
      · exact ih h.2 h1 h2

/-- What is said about the outcome for a list of needs. -/
structure Outcome (g : Reg Ty) (m : BufMap E Ty) (ns : List (Ident × Kind Ty))
    (res : Except Compat (List (Ident × Ref E Ty))) : Prop where
  ok_iff : (∃ rs, res = .ok rs) ↔ ∀ i k, (i, k) ∈ ns → ∃ a, Has m i a ∧ Castable g a k
  ids : ∀ rs, res = .ok rs → rs.map (·.1) = ns.map (·.1)
  refs : ∀ rs, res = .ok rs → ∀ i r, (i, r) ∈ rs →
    ∃ k a, (i, k) ∈ ns ∧ Has m i a ∧ Castable g a k ∧ RefersTo a k r
  missing : ∀ c, res = .error c → ∀ i, i ∈ c.missing ↔ (∃ k, (i, k) ∈ ns) ∧ Missing m i
  unfit : ∀ c, res = .error c → ∀ i, i ∈ c.incompatible ↔ ∃ k, (i, k) ∈ ns ∧ Unfit g m i k

theorem supplied_iff {g : Reg Ty} {m : BufMap E Ty} (ns : List (Ident × Kind Ty))
    (hm : ∀ i, ¬ ((∃ k, (i, k) ∈ ns) ∧ Missing m i)) (hu : ∀ i, ¬ ∃ k, (i, k) ∈ ns ∧ Unfit g m i k) :
    ∀ i k, (i, k) ∈ ns → ∃ a, Has m i a ∧ Castable g a k := by
  intro i k h
  have h1 : ¬ Missing m i := fun x => hm i ⟨⟨k, h⟩, x⟩
  have h2 : ¬ Unfit g m i k := fun x => hu i ⟨k, h, x⟩
  simp only [Missing, Classical.not_forall, Classical.not_not] at h1
  obtain ⟨a, ha⟩ := h1
  refine ⟨a, ha, ?_⟩
  exact Classical.byContradiction fun hc => h2 ⟨a, ha, hc⟩

theorem asResult_none {c : Compat} : c.asResult = none ↔ c.missing = [] ∧ c.incompatible = [] := by
  unfold Compat.asResult
  by_cases h1 : c.missing = []
  · by_cases h2 : c.incompatible = []
    · simp [h1, h2]
    · simp [h1, h2]
  · simp [h1]

theorem asResult_some {c c' : Compat} (h : c.asResult = some c') : c' = c := by
  unfold Compat.asResult at h
  split at h
  · exact (Option.some.inj h).symm
  · split at h
    · exact (Option.some.inj h).symm
    · exact absurd h (by simp)

/-- The outcome of the layouts that end with `as_result`. -/
theorem outcome_asResult (g : Reg Ty) {m : BufMap E Ty} (hd : m.Distinct)
    (ns : List (Ident × Kind Ty)) {c : Compat} {rs : List (Ident × Ref E Ty)}
    (h2 : rs = (requireAll g m .new ns).2)
    (hm : c.missing = (requireAll g m .new ns).1.missing)
    (hu : c.incompatible = (requireAll g m .new ns).1.incompatible) :
    Outcome g m ns (match c.asResult with | some c => .error c | none => .ok rs) := by
  obtain ⟨⟨lm, m1, m2⟩, ⟨lu, u1, u2⟩, _, hrefs, hok, _, _⟩ := requireAll_facts g hd ns .new
  have m1' : c.missing = lm := by rw [hm, m1]; rfl
  have u1' : c.incompatible = lu := by rw [hu, u1]; rfl
  cases hc : c.asResult with
  | none =>
    obtain ⟨e1, e2⟩ := asResult_none.1 hc
    have hs : ∀ i k, (i, k) ∈ ns → ∃ a, Has m i a ∧ Castable g a k := by
      apply supplied_iff
      · intro i h
        have := (m2 i).2 h
        rw [← m1', e1] at this
        exact absurd this (by simp)
      · intro i h
        have := (u2 i).2 h
        rw [← u1', e2] at this
        exact absurd this (by simp)
    refine ⟨⟨fun _ => hs, fun _ => ⟨rs, rfl⟩⟩, ?_, ?_, ?_, ?_⟩
    · intro rs' h
      simp only [Except.ok.injEq] at h
      rw [← h, h2]
      exact (hok hs).2
    · intro rs' h
      simp only [Except.ok.injEq] at h
      rw [← h, h2]
      exact hrefs
    · intro c' h
      simp at h
    · intro c' h
      simp at h
  | some c1 =>
    have e := asResult_some hc
    subst e
    refine ⟨⟨?_, ?_⟩, ?_, ?_, ?_, ?_⟩
    · rintro ⟨rs', h⟩
      simp at h
    · intro h
      have := (hok h).1
      rw [this] at hm hu
      have hn : c1.asResult = none := asResult_none.2 ⟨hm, hu⟩
      rw [hn] at hc
      simp at hc
    · intro rs' h
      simp at h
    · intro rs' h
      simp at h
    · intro c' h
      simp only [Except.error.injEq] at h
      rw [← h, m1']
      exact m2
    · intro c' h
      simp only [Except.error.injEq] at h
      rw [← h, u1']
      exact u2

theorem tryFrom_outcome (g : Reg Ty) {m : BufMap E Ty} (hd : m.Distinct) (l : Layout Ty) :
    Outcome g m (needs m l) (tryFrom g m l) := by
  cases l with
  | map =>
    refine ⟨⟨fun _ => ?_, fun _ => ⟨_, rfl⟩⟩, ?_, ?_, ?_, ?_⟩
    · intro i k h
      simp only [needs, List.mem_map, Prod.mk.injEq] at h
      obtain ⟨p, hp, rfl, rfl⟩ := h
      exact ⟨p.2, hp, trivial⟩
    · intro rs h
      simp only [tryFrom, Except.ok.injEq] at h
      rw [← h]
      simp [needs]
    · intro rs h i r hr
      simp only [tryFrom, Except.ok.injEq] at h
      rw [← h] at hr
      simp only [List.mem_map, Prod.mk.injEq] at hr
      obtain ⟨p, hp, rfl, rfl⟩ := hr
      exact ⟨.any, p.2, by simp only [needs, List.mem_map]; exact ⟨p, hp, rfl⟩, hp, trivial,
        rfl, rfl, rfl, rfl⟩
    · intro c h
      simp [tryFrom] at h
    · intro c h
      simp [tryFrom] at h
  | single k =>
    have hreq := require_facts g hd .new (.index 0) k
    simp only [tryFrom, needs]
    generalize Compat.new.require g (.index 0) k m = p at hreq
    cases hreq with
    | @ok a r h hc hr =>
      refine ⟨⟨fun _ => ?_, fun _ => ⟨_, rfl⟩⟩, ?_, ?_, ?_, ?_⟩
      · intro i k' h'
        simp only [List.mem_singleton, Prod.mk.injEq] at h'
        obtain ⟨rfl, rfl⟩ := h'
        exact ⟨a, h, hc⟩
      · intro rs h'
        simp only [Except.ok.injEq] at h'
        rw [← h']
        rfl
      · intro rs h' i r' hr'
        simp only [Except.ok.injEq] at h'
        rw [← h'] at hr'
        simp only [List.mem_singleton, Prod.mk.injEq] at hr'
        obtain ⟨rfl, rfl⟩ := hr'
        exact ⟨k, a, by simp, h, hc, hr⟩
      · intro c h'
        simp at h'
      · intro c h'
        simp at h'
    | missing h =>
      refine ⟨⟨?_, ?_⟩, ?_, ?_, ?_, ?_⟩
      · rintro ⟨rs, h'⟩
        simp at h'
      · intro h'
        obtain ⟨a, ha, _⟩ := h' (.index 0) k (by simp)
        exact absurd ha (h a)
      · intro rs h'
        simp at h'
      · intro rs h'
        simp at h'
      · intro c h' i
        simp only [Except.error.injEq] at h'
        rw [← h']
        simp only [Compat.new, List.nil_append, List.mem_singleton, Prod.mk.injEq]
        constructor
        · rintro rfl
          exact ⟨⟨k, rfl, rfl⟩, h⟩
        · rintro ⟨⟨k', e, _⟩, _⟩
          exact e
      · intro c h' i
        simp only [Except.error.injEq] at h'
        rw [← h']
        simp only [Compat.new, List.not_mem_nil, List.mem_singleton, Prod.mk.injEq, false_iff]
        rintro ⟨k', ⟨rfl, rfl⟩, a, ha, _⟩
        exact absurd ha (h a)
    | unfit h =>
      refine ⟨⟨?_, ?_⟩, ?_, ?_, ?_, ?_⟩
      · rintro ⟨rs, h'⟩
        simp at h'
      · intro h'
        obtain ⟨a, ha, hc⟩ := h' (.index 0) k (by simp)
        obtain ⟨a', ha', hc'⟩ := h
        rw [has_unique hd ha' ha] at hc'
        exact absurd hc hc'
      · intro rs h'
        simp at h'
      · intro rs h'
        simp at h'
      · intro c h' i
        simp only [Except.error.injEq] at h'
        rw [← h']
        simp only [Compat.new, List.not_mem_nil, List.mem_singleton, Prod.mk.injEq, false_iff]
        rintro ⟨⟨k', rfl, _⟩, hm⟩
        obtain ⟨a, ha, _⟩ := h
        exact absurd ha (hm a)
      · intro c h' i
        simp only [Except.error.injEq] at h'
        rw [← h']
        simp only [Compat.new, List.nil_append, List.mem_singleton, Prod.mk.injEq]
        constructor
        · rintro rfl
          exact ⟨k, ⟨rfl, rfl⟩, h⟩
        · rintro ⟨k', ⟨e, _⟩, _⟩
          exact e
  | vec k => exact outcome_asResult g hd _ rfl rfl rfl
  | jsonMap =>
    obtain ⟨e1, e2, e3⟩ := requireNames_eq g m (m.map (·.1)) .new
    have hn : (((m.map (·.1)).filter Ident.isName).map fun i => (i, Kind.json (Ty := Ty)))
        = needs m .jsonMap := by
      simp only [needs, List.filter_map, List.map_map]
      rfl
    rw [hn] at e1 e2 e3
    exact outcome_asResult g hd _ e1 e2 e3
  | jsonAny => exact outcome_asResult g hd _ rfl rfl rfl
  | fields fs =>
    have hn : (fs.map fun f => (Ident.name f.1, f.2)) = needs m (.fields fs) := rfl
    simp only [tryFrom, hn]
    obtain ⟨⟨lm, m1, m2⟩, ⟨lu, u1, u2⟩, _, hrefs, hok, _, hfull⟩ :=
      requireAll_facts g hd (needs m (.fields fs)) .new
    have hl : (needs m (.fields fs)).length = fs.length := by simp [needs]
    split
    · rename_i he
      have hs := hfull (he.trans hl.symm)
      refine ⟨⟨fun _ => hs, fun _ => ⟨_, rfl⟩⟩, ?_, ?_, ?_, ?_⟩
      · intro rs h
        simp only [Except.ok.injEq] at h
        rw [← h]
        exact (hok hs).2
      · intro rs h
        simp only [Except.ok.injEq] at h
        rw [← h]
        exact hrefs
      · intro c h
        simp at h
      · intro c h
        simp at h
    · rename_i he
      refine ⟨⟨?_, ?_⟩, ?_, ?_, ?_, ?_⟩
      · rintro ⟨rs, h⟩
        simp at h
      · intro h
        have := congrArg List.length (hok h).2
        simp only [List.length_map] at this
        exact absurd (this.trans hl) he
      · intro rs h
        simp at h
      · intro rs h
        simp at h
      · intro c h
        simp only [Except.error.injEq] at h
        rw [← h, m1]
        exact m2
      · intro c h
        simp only [Except.error.injEq] at h
        rw [← h, u1]
        exact u2

/-- A list without repetition that is contained in a list that is not longer contains
it. -/
theorem subset_of_length {A : Type} [DecidableEq A] : ∀ {l l' : List A}, l.Nodup → (∀ x ∈ l, x ∈ l') →
    l'.length ≤ l.length → ∀ x ∈ l', x ∈ l
  | [], l', _, _, hl, x, hx => by
    have : l' = [] := List.eq_nil_of_length_eq_zero (Nat.le_zero.1 hl)
    rw [this] at hx
    exact hx
  | a :: l, l', hn, hs, hl, x, hx => by
    rw [List.nodup_cons] at hn
    by_cases e : x = a
    · exact e ▸ List.mem_cons_self
    · refine List.mem_cons_of_mem _ (subset_of_length (l' := l'.erase a) hn.2 ?_ ?_ x ?_)
      · intro y hy
        have hya : y ≠ a := fun h => hn.1 (h ▸ hy)
        exact (List.mem_erase_of_ne hya).2 (hs y (List.mem_cons_of_mem _ hy))
      · rw [List.length_erase_of_mem (hs a List.mem_cons_self)]
        simp only [List.length_cons] at hl
        omega
      · exact (List.mem_erase_of_ne e).2 hx

/-- A vector layout that is supplied leaves no buffer of the map out. -/
theorem vec_nothingElse {g : Reg Ty} {m : BufMap E Ty} (hd : m.Distinct) {k : Kind Ty}
    (h : Supplied g m (.vec k)) : NothingElse m (.vec k) := by
  intro i a hi
  refine subset_of_length (l' := m.map (·.1)) (needs_nodup hd (l := .vec k) trivial) ?_ ?_ i
    (List.mem_map_of_mem (f := (·.1)) hi)
  · intro j hj
    simp only [List.mem_map] at hj
    obtain ⟨⟨j', k'⟩, hp, rfl⟩ := hj
    obtain ⟨a', ha', _⟩ := h j' k' hp
    exact List.mem_map_of_mem (f := (·.1)) ha'
  · simp [needs]

/-! ### Hints -/

theorem filter_ne_of_not_mem {i : Ident} {l : List Ident} (h : i ∉ l) :
    l.filter (· ≠ i) = l := by
  rw [List.filter_eq_self]
  intro a ha
  have : a ≠ i := fun e => h (e ▸ ha)
  simpa using this

theorem loop_facts (p : Ident → Bool) (h : Hint Ty) : ∀ (n : Nat) (v : Eval Ty),
    v.unevaluated.Nodup → (v.unevaluated.filter p).length ≤ n →
    (Eval.loop p h n v).compat.missing = v.compat.missing ∧
    (Eval.loop p h n v).compat.incompatible = v.compat.incompatible ∧
    (Eval.loop p h n v).evaluated = v.evaluated ++ (v.unevaluated.filter p).map fun i => (i, h)
  | 0, v, _, hl => by
    have : v.unevaluated.filter p = [] := List.eq_nil_of_length_eq_zero (Nat.le_zero.1 hl)
    simp [Eval.loop, Eval.retain, this]
  | n + 1, v, hn, hl => by
    simp only [Eval.loop]
    cases hu : v.unevaluated.filter p with
    | nil =>
      have : (v.retain p).unevaluated = [] := hu
      simp only [this]
      simp [Eval.retain]
    | cons i rest =>
      have hr : (v.retain p).unevaluated = i :: rest := hu
      simp only [hr]
      have hnr : (i :: rest).Nodup := hu ▸ (List.filter_sublist (l := v.unevaluated)).nodup hn
      rw [List.nodup_cons] at hnr
      have hset : (v.retain p).setHint i h = { v.retain p with
          unevaluated := rest
          evaluated := v.evaluated ++ [(i, h)] } := by
        unfold Eval.setHint
        rw [if_pos (by rw [hr]; exact List.mem_cons_self)]
        have hf : (v.retain p).unevaluated.filter (· ≠ i) = rest := by
          rw [hr, List.filter_cons]
          simp only [ne_eq, not_true_eq_false, decide_false, Bool.false_eq_true, if_false]
          exact filter_ne_of_not_mem hnr.1
        rw [hf]
        rfl
      have hfr : rest.filter p = rest := by
        rw [List.filter_eq_self]
        intro a ha
        have : a ∈ v.unevaluated.filter p := by rw [hu]; exact List.mem_cons_of_mem _ ha
        exact (List.mem_filter.1 this).2
      rw [hset]
      have ih := loop_facts p h n { v.retain p with
          unevaluated := rest
          evaluated := v.evaluated ++ [(i, h)] } hnr.2 (by
            simp only [hfr]
            rw [hu, List.length_cons] at hl
            omega)
      simp only [hfr] at ih
      refine ⟨ih.1, ih.2.1, ?_⟩
      rw [ih.2.2]
      simp

theorem loop_evaluate (p : Ident → Bool) (h : Hint Ty) {ids : List Ident} (hn : ids.Nodup) :
    (Eval.loop p h ids.length ⟨ids, [], .new⟩).evaluate
      = .ok ((ids.filter p).map fun i => (i, h)) := by
  obtain ⟨h1, h2, h3⟩ := loop_facts p h ids.length ⟨ids, [], .new⟩ hn (List.length_filter_le _ _)
  unfold Eval.evaluate
  generalize hv : Eval.loop p h ids.length ⟨ids, [], .new⟩ = v at h1 h2 h3
  have : ({ v.compat with forbidden := v.compat.forbidden ++ v.unevaluated } : Compat).asResult
      = none := asResult_none.2 ⟨h1, h2⟩
  simp only [this, h3, List.nil_append]

theorem fold_facts : ∀ (fs : List (String × Kind Ty)) (v : Eval Ty), (fs.map (·.1)).Nodup →
    let v' := fs.foldl (fun v f => Eval.setHint v (.name f.1) f.2.hint) v
    v'.compat.missing = v.compat.missing ++
      (fs.filter fun f => Ident.name f.1 ∉ v.unevaluated).map (fun f => Ident.name f.1) ∧
    v'.compat.incompatible = v.compat.incompatible ∧
    v'.evaluated = v.evaluated ++
      (fs.filter fun f => Ident.name f.1 ∈ v.unevaluated).map (fun f => (Ident.name f.1, f.2.hint))
  | [], v, _ => by simp
  | f :: fs, v, hn => by
    rw [List.map_cons, List.nodup_cons] at hn
    have ih := fold_facts fs (v.setHint (.name f.1) f.2.hint) hn.2
    simp only [List.foldl_cons]
    simp only at ih
    by_cases hm : Ident.name f.1 ∈ v.unevaluated
    · have hset : v.setHint (.name f.1) f.2.hint = { v with
          unevaluated := v.unevaluated.filter (· ≠ .name f.1)
          evaluated := v.evaluated ++ [(.name f.1, f.2.hint)] } := by
        unfold Eval.setHint
        rw [if_pos hm]
      have hmem : ∀ f' ∈ fs, (Ident.name f'.1 ∈ v.unevaluated.filter (· ≠ .name f.1)
          ↔ Ident.name f'.1 ∈ v.unevaluated) := by
        intro f' hf'
        rw [List.mem_filter]
        have : f'.1 ≠ f.1 := fun e => hn.1 (e ▸ List.mem_map_of_mem (f := (·.1)) hf')
        simp [this]
      rw [hset] at ih ⊢
      simp only at ih
      have hf1 : (fs.filter fun f' => decide (Ident.name f'.1 ∉ v.unevaluated.filter (· ≠ .name f.1)))
          = fs.filter fun f' => decide (Ident.name f'.1 ∉ v.unevaluated) :=
        List.filter_congr fun f' hf' => decide_eq_decide.2 (not_congr (hmem f' hf'))
      have hf2 : (fs.filter fun f' => decide (Ident.name f'.1 ∈ v.unevaluated.filter (· ≠ .name f.1)))
          = fs.filter fun f' => decide (Ident.name f'.1 ∈ v.unevaluated) :=
        List.filter_congr fun f' hf' => decide_eq_decide.2 (hmem f' hf')
      rw [hf1, hf2] at ih
      refine ⟨?_, ih.2.1, ?_⟩
      · rw [ih.1, List.filter_cons]
        simp [hm]
      · rw [ih.2.2, List.filter_cons]
        simp [hm]
    · have hset : v.setHint (.name f.1) f.2.hint = { v with
          compat := { v.compat with missing := v.compat.missing ++ [.name f.1] } } := by
        unfold Eval.setHint
        rw [if_neg hm]
      rw [hset] at ih ⊢
      simp only at ih
      refine ⟨?_, ih.2.1, ?_⟩
      · rw [ih.1, List.filter_cons]
        simp [hm]
      · rw [ih.2.2, List.filter_cons]
        simp [hm]

/-- The hints of a struct. -/
theorem hints_fields {ids : List Ident} {fs : List (String × Kind Ty)} (hn : (fs.map (·.1)).Nodup) :
    (∃ hs, hints ids (.fields fs) = .ok hs) ↔ ∀ f ∈ fs, Ident.name f.1 ∈ ids := by
  have h := fold_facts fs ⟨ids, [], .new⟩ hn
  simp only at h
  simp only [hints]
  generalize hv : fs.foldl (fun v f => Eval.setHint v (.name f.1) f.2.hint)
    ({ unevaluated := ids, evaluated := [], compat := .new } : Eval Ty) = v at h
  obtain ⟨h1, h2, _⟩ := h
  have hc : (⟨v.compat.missing, v.compat.forbidden ++ v.unevaluated, v.compat.incompatible⟩ :
      Compat).asResult
      = none ↔ ∀ f ∈ fs, Ident.name f.1 ∈ ids := by
    rw [asResult_none]
    simp only [h1, h2]
    simp only [Compat.new, List.nil_append, List.map_eq_nil_iff, List.filter_eq_nil_iff, and_true]
    constructor
    · intro x f hf
      have := x f hf
      simpa using this
    · intro x f hf
      simpa using x f hf
  unfold Eval.evaluate
  rw [← hc]
  cases he : (⟨v.compat.missing, v.compat.forbidden ++ v.unevaluated, v.compat.incompatible⟩ :
      Compat).asResult with
  | none => simp [he]
  | some c => simp [he]

theorem hints_fields_ok {ids : List Ident} {fs : List (String × Kind Ty)}
    (hn : (fs.map (·.1)).Nodup) {hs : List (Ident × Hint Ty)} (h : hints ids (.fields fs) = .ok hs) :
    hs = fs.map fun f => (Ident.name f.1, f.2.hint) := by
  have hall := (hints_fields hn).1 ⟨hs, h⟩
  have hf := fold_facts fs ⟨ids, [], .new⟩ hn
  simp only at hf
  simp only [hints] at h
  generalize hv : fs.foldl (fun v f => Eval.setHint v (.name f.1) f.2.hint)
    ({ unevaluated := ids, evaluated := [], compat := .new } : Eval Ty) = v at h hf
  unfold Eval.evaluate at h
  simp only at h
  split at h
  · simp at h
  · simp only [Except.ok.injEq] at h
    rw [← h, hf.2.2, List.nil_append]
    rw [List.filter_eq_self.2]
    intro f hf'
    simpa using hall f hf'

theorem hints_single {ids : List Ident} {k : Kind Ty} :
    hints ids (.single k) = if Ident.index 0 ∈ ids then .ok [(.index 0, k.hint)]
      else .error ⟨[.index 0], ids, []⟩ := by
  simp only [hints, Eval.setHint]
  split
  · simp [Eval.evaluate, Compat.asResult, Compat.new]
  · simp [Eval.evaluate, Compat.asResult, Compat.new]

end

/-! ### Joins of several buffers -/

section
variable {E Ty S : Type} [DecidableEq E] [DecidableEq Ty] [DecidableEq S]
variable {V : Ty → Type} {J I : Type}

/-- What a join of several buffers relies on: every buffer has a message that can be
shown. -/
structure Ready (sd : Serde V J) (g : Reg Ty) (w : BufWorld E S V) (s : S) (r : Ref E Ty)
    (b : Behavior) : Prop where
  joins : r.Joins b
  buffer : IsBuffer w r.loc.source r.ty
  plain : Plain sd g w s r
  message : ∃ x i, (stock w r.loc.source s).head? = some x ∧ shown sd r.kind x = some i

theorem plain_congr {sd : Serde V J} {g : Reg Ty} {w w' : BufWorld E S V} {s : S} {r : Ref E Ty}
    (h : stock w' r.loc.source s = stock w r.loc.source s) (hp : Plain sd g w s r) :
    Plain sd g w' s r := by
  cases r with
  | json a =>
    simp only [Plain, Ref.loc] at hp h ⊢
    rw [h]
    exact hp
  | any a => exact hp
  | buffer l t => trivial
  | cloneFrom l t => trivial
  | fetch l t f b => trivial

/-- A join of different buffers takes the oldest message of each, and removes those that
are to be pulled. -/
theorem fetchAll_facts (sd : Serde V J) (g : Reg Ty) (s : S) (beh : Ref E Ty → Behavior) :
    ∀ (rs : List (I × Ref E Ty)) (w : BufWorld E S V),
    (rs.map fun q => q.2.loc.source).Nodup → (∀ q ∈ rs, Ready sd g w s q.2 (beh q.2)) →
    ∃ w' items, fetchAll sd g s w rs = (w', some items) ∧
      items.map (·.1) = rs.map (·.1) ∧
      (∀ q ∈ rs, ∃ x i, (stock w q.2.loc.source s).head? = some x ∧
        shown sd q.2.kind x = some i ∧ (q.1, i) ∈ items) ∧
      (∀ e s', (s' = s ∧ ∃ q ∈ rs, q.2.loc.source = e ∧ beh q.2 = .pull) →
        stock w' e s' = (stock w e s').tail) ∧
      (∀ e s', ¬ (s' = s ∧ ∃ q ∈ rs, q.2.loc.source = e ∧ beh q.2 = .pull) →
        stock w' e s' = stock w e s')
  | [], w, _, _ => ⟨w, [], rfl, rfl, by simp, by simp, by simp⟩
  | (i0, r) :: rs, w, hn, hr => by
    rw [List.map_cons, List.nodup_cons] at hn
    have hr0 := hr (i0, r) (by simp)
    obtain ⟨x0, it0, hx0, hit0⟩ := hr0.message
    have ht := fetch_takes sd g w s r hr0.joins hr0.buffer hr0.plain
    simp only [TakesOldest, hx0, Option.bind_some, hit0] at ht
    generalize hf : fetch sd g w s r = p at ht
    obtain ⟨w1, o⟩ := p
    simp only at ht
    obtain ⟨rfl, hst⟩ := ht
    have hsame : ∀ e s', e ≠ r.loc.source → stock w1 e s' = stock w e s' := by
      intro e s' he
      rw [hst]
      simp [after, he]
    have hsrc : ∀ q ∈ rs, q.2.loc.source ≠ r.loc.source := by
      intro q hq e
      apply hn.1
      simp only at e ⊢
      rw [← e]
      exact List.mem_map_of_mem (f := fun q : I × Ref E Ty => q.2.loc.source) hq
    have hr1 : ∀ q ∈ rs, Ready sd g w1 s q.2 (beh q.2) := by
      intro q hq
      have hq0 := hr q (List.mem_cons_of_mem _ hq)
      have hs := hsame q.2.loc.source s (hsrc q hq)
      refine ⟨hq0.joins, ?_, plain_congr hs hq0.plain, ?_⟩
      · have := fetch_isBuffer sd g w s r hq0.buffer
        rw [hf] at this
        exact this
      · obtain ⟨x, i, h1, h2⟩ := hq0.message
        exact ⟨x, i, by rw [hs]; exact h1, h2⟩
    obtain ⟨w', items, e1, e2, e3, e4, e5⟩ := fetchAll_facts sd g s beh rs w1 hn.2 hr1
    refine ⟨w', (i0, it0) :: items, ?_, ?_, ?_, ?_, ?_⟩
    · simp only [fetchAll, hf, e1]
    · simp [e2]
    · intro q hq
      rcases List.mem_cons.1 hq with e | hq
      · subst e
        exact ⟨x0, it0, hx0, hit0, by simp⟩
      · obtain ⟨x, i, h1, h2, h3⟩ := e3 q hq
        rw [hsame _ s (hsrc q hq)] at h1
        exact ⟨x, i, h1, h2, List.mem_cons_of_mem _ h3⟩
    · rintro e s' ⟨rfl, q, hq, hqe, hqb⟩
      rcases List.mem_cons.1 hq with he | hq
      · subst he
        simp only at hqe hqb
        rw [e5 e s' (by
          rintro ⟨_, q', hq', hqe', _⟩
          exact hsrc q' hq' (hqe'.trans hqe.symm))]
        rw [hst]
        simp [after, hqe, hqb]
      · rw [e4 e s' ⟨rfl, q, hq, hqe, hqb⟩]
        rw [hsame e s' (hqe ▸ hsrc q hq)]
    · intro e s' hno
      rw [e5 e s' (by
        rintro ⟨h1, q, hq, h2⟩
        exact hno ⟨h1, q, List.mem_cons_of_mem _ hq, h2⟩)]
      rw [hst]
      simp only [after]
      split
      · rename_i hc
        exact absurd ⟨hc.2.1, (i0, r), by simp, hc.1.symm, hc.2.2⟩ hno
      · rfl

end

/-! ### Joined JSON messages -/

section
variable {J : Type}

theorem atIndex_append (xs ys : List (Ident × J)) (i : Nat) :
    atIndex (xs ++ ys) i = (atIndex xs i).or (atIndex ys i) := by
  simp only [atIndex, List.find?_append]
  cases List.find? (fun x => x.1 == Ident.index i) xs <;> simp

theorem atName_append (xs ys : List (Ident × J)) (n : String) :
    atName (xs ++ ys) n = (atName xs n).or (atName ys n) := by
  simp only [atName, List.find?_append]
  cases List.find? (fun x => x.1 == Ident.name n) xs <;> simp

theorem atIndex_none {xs : List (Ident × J)} {i : Nat} (h : Ident.index i ∉ xs.map (·.1)) :
    atIndex xs i = none := by
  simp only [atIndex, Option.map_eq_none_iff, List.find?_eq_none]
  intro x hx e
  have e' : x.1 = Ident.index i := by simpa using e
  exact h (e' ▸ List.mem_map_of_mem (f := (·.1)) hx)

theorem atName_none {xs : List (Ident × J)} {n : String} (h : Ident.name n ∉ xs.map (·.1)) :
    atName xs n = none := by
  simp only [atName, Option.map_eq_none_iff, List.find?_eq_none]
  intro x hx e
  have e' : x.1 = Ident.name n := by simpa using e
  exact h (e' ▸ List.mem_map_of_mem (f := (·.1)) hx)

theorem atIndex_single (i k : Nat) (j : J) :
    atIndex [(Ident.index i, j)] k = if i = k then some j else none := by
  simp only [atIndex, List.find?_cons, List.find?_nil]
  by_cases e : i = k
  · subst e
    simp
  · have : (Ident.index i == Ident.index k) = false := by simpa using e
    simp [this, e]

theorem atName_single (n k : String) (j : J) :
    atName [(Ident.name n, j)] k = if n = k then some j else none := by
  simp only [atName, List.find?_cons, List.find?_nil]
  by_cases e : n = k
  · subst e
    simp
  · have : (Ident.name n == Ident.name k) = false := by simpa using e
    simp [this, e]

theorem atIndex_single_name (n : String) (j : J) (k : Nat) : atIndex [(Ident.name n, j)] k = none := by
  rfl

theorem atName_single_index (i : Nat) (j : J) (k : String) : atName [(Ident.index i, j)] k = none := by
  rfl

theorem putIndex_length {A : Type} (null : A) (xs : List A) (i : Nat) (x : A) :
    (putIndex null xs i x).length = max xs.length (i + 1) := by
  unfold putIndex
  rw [List.length_set]
  split
  · simp only [List.length_append, List.length_replicate]
    omega
  · omega

theorem putIndex_get {A : Type} (null : A) (xs : List A) (i : Nat) (x : A) (k : Nat) :
    (putIndex null xs i x)[k]? = if k = i then some x
      else if k < xs.length then xs[k]? else if k ≤ i then some null else none := by
  unfold putIndex
  rw [List.getElem?_set]
  by_cases e : i = k
  · subst e
    rw [if_pos rfl, if_pos rfl, if_pos]
    split
    · simp only [List.length_append, List.length_replicate]
      omega
    · omega
  · rw [if_neg e, if_neg (Ne.symm e)]
    by_cases hl : xs.length ≤ i
    · rw [if_pos hl, List.getElem?_append]
      by_cases hk : k < xs.length
      · simp [hk]
      · simp only [hk, if_false, List.getElem?_replicate]
        by_cases hki : k ≤ i
        · simp only [hki, if_true]
          rw [if_pos (by omega)]
        · simp only [hki, if_false]
          rw [if_neg (by omega)]
    · rw [if_neg hl]
      by_cases hk : k < xs.length
      · simp [hk]
      · have : ¬ k ≤ i := by omega
        simp only [hk, if_false, this]
        exact List.getElem?_eq_none (by omega)

theorem arrayOf_put {xs : List (Ident × J)} {a : List (JsonVal J)} {i : Nat} {j : J}
    (h : ArrayOf xs a) (hi : Ident.index i ∉ xs.map (·.1)) :
    ArrayOf (xs ++ [(.index i, j)]) (putIndex .null a i (.msg j)) := by
  obtain ⟨h1, h2, h3⟩ := h
  have hni := atIndex_none hi
  refine ⟨?_, ?_, ?_⟩
  · intro k j' hk
    rw [atIndex_append, atIndex_single] at hk
    rw [putIndex_get]
    by_cases e : k = i
    · subst e
      rw [hni] at hk
      simp only [if_true, Option.none_or, Option.some.injEq] at hk
      rw [if_pos rfl, hk]
    · rw [if_neg (Ne.symm e)] at hk
      simp only [Option.or_none] at hk
      have hlt : k < a.length := (h3 k).2 ⟨k, j', Nat.le_refl _, hk⟩
      rw [if_neg e, if_pos hlt]
      exact h1 k j' hk
  · intro k hlen hk
    rw [putIndex_length] at hlen
    rw [atIndex_append, atIndex_single] at hk
    rw [putIndex_get]
    by_cases e : k = i
    · subst e
      rw [hni] at hk
      simp at hk
    · rw [if_neg (Ne.symm e)] at hk
      simp only [Option.or_none] at hk
      rw [if_neg e]
      by_cases hlt : k < a.length
      · rw [if_pos hlt]
        exact h2 k hlt hk
      · rw [if_neg hlt, if_pos (by omega)]
  · intro k
    rw [putIndex_length]
    constructor
    · intro hk
      by_cases hlt : k < a.length
      · obtain ⟨i', j', hle, hat⟩ := (h3 k).1 hlt
        exact ⟨i', j', hle, by rw [atIndex_append, hat]; rfl⟩
      · exact ⟨i, j, by omega, by rw [atIndex_append, hni, atIndex_single]; simp⟩
    · rintro ⟨i', j', hle, hat⟩
      rw [atIndex_append, atIndex_single] at hat
      by_cases e : i = i'
      · omega
      · rw [if_neg e, Option.or_none] at hat
        have := (h3 k).2 ⟨i', j', hle, hat⟩
        omega

theorem arrayOf_name {xs : List (Ident × J)} {a : List (JsonVal J)} {n : String} {j : J}
    (h : ArrayOf xs a) : ArrayOf (xs ++ [(.name n, j)]) a := by
  have he : ∀ k, atIndex (xs ++ [(Ident.name n, j)]) k = atIndex xs k := by
    intro k
    rw [atIndex_append, atIndex_single_name, Option.or_none]
  unfold ArrayOf
  simp only [he]
  exact h

theorem objectOf_index {xs : List (Ident × J)} {o : List (String × JsonVal J)} {i : Nat} {j : J}
    (h : ObjectOf xs o) : ObjectOf (xs ++ [(.index i, j)]) o := by
  have he : ∀ k, atName (xs ++ [(Ident.index i, j)]) k = atName xs k := by
    intro k
    rw [atName_append, atName_single_index, Option.or_none]
  unfold ObjectOf
  simp only [he]
  exact h

theorem objectOf_insert {xs : List (Ident × J)} {o : List (String × JsonVal J)} {n : String} {j : J}
    (h : ObjectOf xs o) (hn : Ident.name n ∉ xs.map (·.1)) :
    ObjectOf (xs ++ [(.name n, j)]) (insertField o n (.msg j)) := by
  obtain ⟨h1, h2⟩ := h
  have hnone := atName_none hn
  have hno : ∀ v, (n, v) ∉ o := by
    intro v hv
    obtain ⟨j', hj', _⟩ := (h2 n v).1 hv
    rw [hnone] at hj'
    simp at hj'
  have hins : insertField o n (.msg j) = o ++ [(n, .msg j)] := by
    unfold insertField
    rw [if_neg]
    simp only [List.any_eq_true, not_exists, not_and, decide_eq_true_eq]
    intro x hx e
    exact hno x.2 (e ▸ hx)
  rw [hins]
  refine ⟨?_, ?_⟩
  · rw [List.map_append, List.nodup_append]
    refine ⟨h1, by simp, ?_⟩
    intro a ha b hb e
    simp only [List.map_cons, List.map_nil, List.mem_singleton] at hb
    subst hb
    subst e
    simp only [List.mem_map] at ha
    obtain ⟨x, hx, rfl⟩ := ha
    exact hno x.2 hx
  · intro m v
    rw [List.mem_append, h2, atName_append, atName_single]
    simp only [List.mem_singleton, Prod.mk.injEq]
    by_cases e : n = m
    · subst e
      rw [hnone]
      simp
    · rw [if_neg e]
      simp [Ne.symm e]

theorem sortOut_facts : ∀ (xs ys : List (Ident × J)) (o : List (String × JsonVal J))
    (a : List (JsonVal J)), ((ys ++ xs).map (·.1)).Nodup → ObjectOf ys o → ArrayOf ys a →
    ObjectOf (ys ++ xs) (sortOut xs (o, a)).1 ∧ ArrayOf (ys ++ xs) (sortOut xs (o, a)).2
  | [], ys, o, a, _, ho, ha => by simpa [sortOut] using ⟨ho, ha⟩
  | (i, j) :: xs, ys, o, a, hn, ho, ha => by
    have hsplit : ys ++ (i, j) :: xs = (ys ++ [(i, j)]) ++ xs := by simp
    have hfresh : i ∉ ys.map (·.1) := by
      rw [List.map_append, List.nodup_append] at hn
      intro hi
      exact hn.2.2 i hi i (by simp) rfl
    rw [hsplit] at hn ⊢
    cases i with
    | index i =>
      simp only [sortOut]
      exact sortOut_facts xs _ o _ hn (objectOf_index ho) (arrayOf_put ha hfresh)
    | name n =>
      simp only [sortOut]
      exact sortOut_facts xs _ _ a hn (objectOf_insert ho hfresh) (arrayOf_name ha)

theorem objectOf_nil : ObjectOf ([] : List (Ident × J)) [] :=
  ⟨by simp, by simp [atName]⟩

theorem arrayOf_nil : ArrayOf ([] : List (Ident × J)) [] :=
  ⟨by simp [atIndex], by simp, by simp [atIndex]⟩

end

end Verif.Refs
