import Verif.Refs.Lemmas

/-
Lemmas about layouts, hints and joined JSON messages.
-/
set_option linter.unusedSectionVars false

namespace Verif.Refs

open Verif.Buffer (Storage)
open Verif.Views (Box Serde)

section
variable {E Ty : Type} [DecidableEq E] [DecidableEq Ty]

/-! ### Requiring buffers -/

theorem get_eq_some {m : BufMap E Ty} (hd : m.Distinct) {i : Ident} {a : AnyRef E Ty} :
    m.get i = some a ↔ Has m i a := by
  unfold Has
  induction m with
  | nil => simp [BufMap.get]
  | cons p m ih =>
    obtain ⟨j, b⟩ := p
    have hd' : (j :: m.map (·.1)).Nodup := hd
    rw [List.nodup_cons] at hd'
    have ih := ih hd'.2
    unfold BufMap.get at ih ⊢
    by_cases e : j = i
    · subst e
      simp only [List.find?_cons, beq_self_eq_true, Option.map_some, Option.some.injEq,
        List.mem_cons, Prod.mk.injEq, true_and]
      constructor
      · exact fun h => Or.inl h.symm
      · rintro (h | h)
        · exact h.symm
        · exact absurd (List.mem_map_of_mem (f := (·.1)) h) hd'.1
    · have e' : (j == i) = false := by simpa using e
      simp only [List.find?_cons, e', List.mem_cons, Prod.mk.injEq]
      rw [ih]
      constructor
      · exact Or.inr
      · rintro (h | h)
        · exact absurd h.1.symm e
        · exact h

theorem get_eq_none {m : BufMap E Ty} {i : Ident} : m.get i = none ↔ ∀ a, ¬ Has m i a := by
  unfold BufMap.get Has
  rw [Option.map_eq_none_iff, List.find?_eq_none]
  constructor
  · intro h a ha
    exact h _ ha (by simp)
  · intro h x hx hxi
    have : x.1 = i := by simpa using hxi
    exact h x.2 (this ▸ hx)

/-- What one requirement gives. -/
inductive Required (g : Reg Ty) (m : BufMap E Ty) (c : Compat) (i : Ident) (k : Kind Ty) :
    Compat × Option (Ref E Ty) → Prop
  | ok {a : AnyRef E Ty} {r : Ref E Ty} (h : Has m i a) (hc : Castable g a k)
      (hr : RefersTo a k r) : Required g m c i k (c, some r)
  | missing (h : Missing m i) :
      Required g m c i k ({ c with missing := c.missing ++ [i] }, none)
  | unfit (h : Unfit g m i k) :
      Required g m c i k ({ c with incompatible := c.incompatible ++ [i] }, none)

theorem require_facts (g : Reg Ty) {m : BufMap E Ty} (hd : m.Distinct) (c : Compat) (i : Ident)
    (k : Kind Ty) : Required g m c i k (c.require g i k m) := by
  unfold Compat.require
  cases hg : m.get i with
  | none => exact .missing (get_eq_none.1 hg)
  | some a =>
    have ha := (get_eq_some hd).1 hg
    simp only
    cases hc : downcast g a k with
    | none =>
      refine .unfit ⟨a, ha, fun h => ?_⟩
      obtain ⟨r, hr⟩ := (downcast_iff g a k).2 h
      rw [hc] at hr
      exact absurd hr (by simp)
    | some r =>
      exact .ok ha ((downcast_iff g a k).1 ⟨r, hc⟩) (downcast_refers hc)

/-- What a list of requirements gives: the references in order, and the identifiers that
were missing or unfit. -/
structure AllRequired (g : Reg Ty) (m : BufMap E Ty) (c : Compat) (ns : List (Ident × Kind Ty))
    (p : Compat × List (Ident × Ref E Ty)) : Prop where
  missing : ∃ l, p.1.missing = c.missing ++ l ∧
    (∀ i, i ∈ l ↔ (∃ k, (i, k) ∈ ns) ∧ Missing m i)
  unfit : ∃ l, p.1.incompatible = c.incompatible ++ l ∧
    (∀ i, i ∈ l ↔ ∃ k, (i, k) ∈ ns ∧ Unfit g m i k)
  forbidden : p.1.forbidden = c.forbidden
  refs : ∀ i r, (i, r) ∈ p.2 → ∃ k a, (i, k) ∈ ns ∧ Has m i a ∧ Castable g a k ∧ RefersTo a k r
  ok : (∀ i k, (i, k) ∈ ns → ∃ a, Has m i a ∧ Castable g a k) → p.1 = c ∧ p.2.map (·.1) = ns.map (·.1)
  len : p.2.length ≤ ns.length
  full : p.2.length = ns.length → ∀ i k, (i, k) ∈ ns → ∃ a, Has m i a ∧ Castable g a k

theorem has_unique {m : BufMap E Ty} (hd : m.Distinct) {i : Ident} {a a' : AnyRef E Ty}
    (h : Has m i a) (h' : Has m i a') : a = a' := by
  have h1 := (get_eq_some hd).2 h
  have h2 := (get_eq_some hd).2 h'
  rw [h1] at h2
  exact Option.some.inj h2

theorem requireAll_facts (g : Reg Ty) {m : BufMap E Ty} (hd : m.Distinct) :
    ∀ (ns : List (Ident × Kind Ty)) (c : Compat), AllRequired g m c ns (requireAll g m c ns)
  | [], c => by
    refine ⟨⟨[], by simp [requireAll]⟩, ⟨[], by simp [requireAll]⟩, rfl, ?_, ?_, ?_, ?_⟩
    · intro i r h
      simp [requireAll] at h
    · intro _
      exact ⟨rfl, rfl⟩
    · exact Nat.le_refl _
    · intro _ i k h
      simp at h
  | (i, k) :: rest, c => by
    have hreq := require_facts g hd c i k
    generalize hp : c.require g i k m = p at hreq
    cases hreq with
    | @ok a r h hc hr =>
      have ih := requireAll_facts g hd rest c
      have he : requireAll g m c ((i, k) :: rest)
          = ((requireAll g m c rest).1, (i, r) :: (requireAll g m c rest).2) := by
        simp [requireAll, hp]
      rw [he]
      obtain ⟨⟨lm, hm1, hm2⟩, ⟨lu, hu1, hu2⟩, hf, hrefs, hok, hlen, hfull⟩ := ih
      refine ⟨⟨lm, hm1, ?_⟩, ⟨lu, hu1, ?_⟩, hf, ?_, ?_, ?_, ?_⟩
      · intro i'
        rw [hm2]
        constructor
        · rintro ⟨⟨k', hk'⟩, hmi⟩
          exact ⟨⟨k', List.mem_cons_of_mem _ hk'⟩, hmi⟩
        · rintro ⟨⟨k', hk'⟩, hmi⟩
          rcases List.mem_cons.1 hk' with e | hk'
          · simp only [Prod.mk.injEq] at e
            exact absurd h (e.1 ▸ hmi a)
          · exact ⟨⟨k', hk'⟩, hmi⟩
      · intro i'
        rw [hu2]
        constructor
        · rintro ⟨k', hk', hmi⟩
          exact ⟨k', List.mem_cons_of_mem _ hk', hmi⟩
        · rintro ⟨k', hk', hmi⟩
          rcases List.mem_cons.1 hk' with e | hk'
          · simp only [Prod.mk.injEq] at e
            obtain ⟨rfl, rfl⟩ := e
            obtain ⟨a', ha', hna⟩ := hmi
            rw [has_unique hd ha' h] at hna
            exact absurd hc hna
          · exact ⟨k', hk', hmi⟩
      · intro i' r' h'
        rcases List.mem_cons.1 h' with e | h'
        · simp only [Prod.mk.injEq] at e
          obtain ⟨rfl, rfl⟩ := e
          exact ⟨k, a, by simp, h, hc, hr⟩
        · obtain ⟨k', a', q1, q2⟩ := hrefs i' r' h'
          exact ⟨k', a', List.mem_cons_of_mem _ q1, q2⟩
      · intro hall
        obtain ⟨q1, q2⟩ := hok (fun i' k' h' => hall i' k' (List.mem_cons_of_mem _ h'))
        exact ⟨q1, by simp [q2]⟩
      · simp only [List.length_cons]
        omega
      · intro hl i' k' h'
        simp only [List.length_cons] at hl
        rcases List.mem_cons.1 h' with e | h'
        · simp only [Prod.mk.injEq] at e
          obtain ⟨rfl, rfl⟩ := e
          exact ⟨a, h, hc⟩
        · exact hfull (by omega) i' k' h'
    | missing h =>
      have ih := requireAll_facts g hd rest { c with missing := c.missing ++ [i] }
      have he : requireAll g m c ((i, k) :: rest)
          = requireAll g m { c with missing := c.missing ++ [i] } rest := by
        simp [requireAll, hp]
      rw [he]
      obtain ⟨⟨lm, hm1, hm2⟩, ⟨lu, hu1, hu2⟩, hf, hrefs, hok, hlen, hfull⟩ := ih
      refine ⟨⟨i :: lm, by simp [hm1], ?_⟩, ⟨lu, hu1, ?_⟩, hf, ?_, ?_, ?_, ?_⟩
      · intro i'
        rw [List.mem_cons, hm2]
        constructor
        · rintro (e | ⟨⟨k', hk'⟩, hmi⟩)
          · subst e
            exact ⟨⟨k, by simp⟩, h⟩
          · exact ⟨⟨k', List.mem_cons_of_mem _ hk'⟩, hmi⟩
        · rintro ⟨⟨k', hk'⟩, hmi⟩
          rcases List.mem_cons.1 hk' with e | hk'
          · simp only [Prod.mk.injEq] at e
            exact Or.inl e.1
          · exact Or.inr ⟨⟨k', hk'⟩, hmi⟩
      · intro i'
        rw [hu2]
        constructor
        · rintro ⟨k', hk', hmi⟩
          exact ⟨k', List.mem_cons_of_mem _ hk', hmi⟩
        · rintro ⟨k', hk', hmi⟩
          rcases List.mem_cons.1 hk' with e | hk'
          · simp only [Prod.mk.injEq] at e
            obtain ⟨rfl, rfl⟩ := e
            obtain ⟨a', ha', _⟩ := hmi
            exact absurd ha' (h a')
          · exact ⟨k', hk', hmi⟩
      · intro i' r' h'
        obtain ⟨k', a', q1, q2⟩ := hrefs i' r' h'
        exact ⟨k', a', List.mem_cons_of_mem _ q1, q2⟩
      · intro hall
        obtain ⟨a, ha, _⟩ := hall i k (by simp)
        exact absurd ha (h a)
      · simp only [List.length_cons]
        omega
      · intro hl
        simp only [List.length_cons] at hl
        omega
    | unfit h =>
      have ih := requireAll_facts g hd rest { c with incompatible := c.incompatible ++ [i] }
      have he : requireAll g m c ((i, k) :: rest)
          = requireAll g m { c with incompatible := c.incompatible ++ [i] } rest := by
        simp [requireAll, hp]
      rw [he]
      obtain ⟨⟨lm, hm1, hm2⟩, ⟨lu, hu1, hu2⟩, hf, hrefs, hok, hlen, hfull⟩ := ih
      refine ⟨⟨lm, hm1, ?_⟩, ⟨i :: lu, by simp [hu1], ?_⟩, hf, ?_, ?_, ?_, ?_⟩
      · intro i'
        rw [hm2]
        constructor
        · rintro ⟨⟨k', hk'⟩, hmi⟩
          exact ⟨⟨k', List.mem_cons_of_mem _ hk'⟩, hmi⟩
        · rintro ⟨⟨k', hk'⟩, hmi⟩
          rcases List.mem_cons.1 hk' with e | hk'
          · simp only [Prod.mk.injEq] at e
            obtain ⟨a, ha, _⟩ := h
            exact absurd ha (e.1 ▸ hmi a)
          · exact ⟨⟨k', hk'⟩, hmi⟩
      · intro i'
        rw [List.mem_cons, hu2]
        constructor
        · rintro (e | ⟨k', hk', hmi⟩)
          · subst e
            exact ⟨k, by simp, h⟩
          · exact ⟨k', List.mem_cons_of_mem _ hk', hmi⟩
        · rintro ⟨k', hk', hmi⟩
          rcases List.mem_cons.1 hk' with e | hk'
          · simp only [Prod.mk.injEq] at e
            exact Or.inl e.1
          · exact Or.inr ⟨k', hk', hmi⟩
      · intro i' r' h'
        obtain ⟨k', a', q1, q2⟩ := hrefs i' r' h'
        exact ⟨k', a', List.mem_cons_of_mem _ q1, q2⟩
      · intro hall
        obtain ⟨a, ha, hca⟩ := hall i k (by simp)
        obtain ⟨a', ha', hca'⟩ := h
        rw [has_unique hd ha' ha] at hca'
        exact absurd hca hca'
      · simp only [List.length_cons]
        omega
      · intro hl
        simp only [List.length_cons] at hl
        omega

/-- The loop over the names of a map is the same as requiring the names. -/
theorem requireNames_eq (g : Reg Ty) (m : BufMap E Ty) : ∀ (ids : List Ident) (c : Compat),
    (requireNames g m c ids).2
        = (requireAll g m c ((ids.filter Ident.isName).map fun i => (i, .json))).2 ∧
    (requireNames g m c ids).1.missing
        = (requireAll g m c ((ids.filter Ident.isName).map fun i => (i, .json))).1.missing ∧
    (requireNames g m c ids).1.incompatible
        = (requireAll g m c ((ids.filter Ident.isName).map fun i => (i, .json))).1.incompatible
  | [], c => ⟨rfl, rfl, rfl⟩
  | .name n :: rest, c => by
    have hn : (Ident.name n).isName = true := rfl
    simp only [requireNames, List.filter_cons, hn, if_true, List.map_cons, requireAll]
    cases hp : c.require g (.name n) .json m with
    | mk c' o =>
      have ih := requireNames_eq g m rest c'
      cases o with
      | none => exact ih
      | some r =>
        simp only
        exact ⟨by rw [ih.1], ih.2⟩
  | .index i :: rest, c => by
    have hn : (Ident.index i).isName = false := rfl
    simp only [requireNames, List.filter_cons, hn, Bool.false_eq_true, if_false]
    have ih := requireNames_eq g m rest { c with forbidden := c.forbidden ++ [.index i] }
    have hf : ∀ (ns : List (Ident × Kind Ty)) (c : Compat) (l : List Ident),
        (requireAll g m { c with forbidden := l } ns).2 = (requireAll g m c ns).2 ∧
        (requireAll g m { c with forbidden := l } ns).1.missing
          = (requireAll g m c ns).1.missing ∧
        (requireAll g m { c with forbidden := l } ns).1.incompatible
          = (requireAll g m c ns).1.incompatible := by
      intro ns
      induction ns with
      | nil => exact fun c l => ⟨rfl, rfl, rfl⟩
      | cons q ns ihn =>
        obtain ⟨j, k⟩ := q
        intro c l
        simp only [requireAll, Compat.require]
        cases m.get j with
        | none =>
          simp only
          exact ihn { c with missing := c.missing ++ [j] } l
        | some a =>
          simp only
          cases downcast g a k with
          | none =>
            simp only
            exact ihn { c with incompatible := c.incompatible ++ [j] } l
          | some r =>
            simp only
            have := ihn c l
            exact ⟨by rw [this.1], this.2⟩
    have := hf ((rest.filter Ident.isName).map fun i => (i, .json)) c (c.forbidden ++ [.index i])
    exact ⟨ih.1.trans this.1, ih.2.1.trans this.2.1, ih.2.2.trans this.2.2⟩

end

end Verif.Refs
