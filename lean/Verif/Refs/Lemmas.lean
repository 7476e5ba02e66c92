import Verif.Refs.Spec

/-
Lemmas about references, conversions and joins.
-/
set_option linter.unusedSectionVars false

namespace Verif.Refs

open Verif.Buffer (Storage)
open Verif.Views (Box Serde)

section
variable {E Ty : Type} [DecidableEq E] [DecidableEq Ty]

/-! ### Conversions -/

/-- The function pointer of a `FetchFromBuffer` agrees with its behaviour. -/
def Ref.Sane (r : Ref E Ty) : Prop := ∃ b, r.Joins b

theorem joins_unique {r : Ref E Ty} {b b' : Behavior} (h : r.Joins b) (h' : r.Joins b') :
    b = b' := by
  cases r <;> simp only [Ref.Joins] at h h'
  · exact h.trans h'.symm
  · exact h.trans h'.symm
  · exact h.1.symm.trans h'.1
  · exact h.symm.trans h'
  · exact h.symm.trans h'

theorem toAny_facts {r : Ref E Ty} {b : Behavior} (h : r.Joins b) :
    r.toAny.loc = r.loc ∧ r.toAny.ty = r.ty ∧ r.toAny.behavior = b := by
  cases r <;> simp only [Ref.Joins] at h <;> simp [Ref.toAny, Ref.loc, Ref.ty, h]

theorem le_refl (g : Reg Ty) : g.le g := ⟨fun _ h => h, fun _ h => h⟩

theorem le_trans {g g' g'' : Reg Ty} (h : g.le g') (h' : g'.le g'') : g.le g'' :=
  ⟨fun t x => h'.1 t (h.1 t x), fun t x => h'.2 t (h.2 t x)⟩

theorem le_addClone (g : Reg Ty) (t : Ty) : g.le (g.addClone t) := by
  refine ⟨fun u h => ?_, fun u h => h⟩
  simp only [Reg.addClone, h]
  split <;> rfl

theorem le_addJson (basic : Ty → Bool) (g : Reg Ty) (t : Ty) : g.le (g.addJson basic t) := by
  refine ⟨fun u h => h, fun u h => ?_⟩
  simp only [Reg.addJson, h, Bool.or_true]
  split <;> rfl

theorem conv_le (tr : Traits Ty) (g : Reg Ty) (r : Ref E Ty) (c : Conv Ty) :
    g.le (conv tr g r c).1 := by
  cases c <;> cases r <;> simp only [conv] <;>
    first
      | exact le_refl g
      | (split <;> first | exact le_refl g | exact le_addClone g _ | exact le_addJson _ g _)

theorem tryFetch_refers {g : Reg Ty} {a : AnyRef E Ty} {u : Ty} {r : Ref E Ty}
    (h : tryFetch g a u = some r) (hu : u = a.ty) : RefersTo a (.fetch u) r := by
  subst hu
  unfold tryFetch at h
  cases hb : a.behavior with
  | pull =>
    simp only [hb, Option.some.injEq] at h
    subst h
    exact ⟨rfl, rfl, rfl, by simp [Ref.Joins, Kind.keeps, hb]⟩
  | clone =>
    simp only [hb] at h
    split at h
    · simp only [Option.some.injEq] at h
      subst h
      exact ⟨rfl, rfl, rfl, by simp [Ref.Joins, Kind.keeps, hb]⟩
    · exact absurd h (by simp)

/-- A downcast that succeeds gives a reference of the kind asked for to the same
buffer. -/
theorem downcast_refers {g : Reg Ty} {a : AnyRef E Ty} {k : Kind Ty} {r : Ref E Ty}
    (h : downcast g a k = some r) : RefersTo a k r := by
  cases k with
  | any =>
    simp only [downcast, Option.some.injEq] at h
    subst h
    exact ⟨rfl, rfl, rfl, rfl⟩
  | json =>
    simp only [downcast] at h
    split at h
    · simp only [Option.some.injEq] at h
      subst h
      exact ⟨rfl, rfl, rfl, rfl⟩
    · exact absurd h (by simp)
  | buffer u =>
    simp only [downcast] at h
    split at h
    · rename_i e
      simp only [Option.some.injEq] at h
      subst h
      exact ⟨rfl, rfl, e.symm, rfl⟩
    · exact absurd h (by simp)
  | cloneFrom u =>
    simp only [downcast] at h
    split at h
    · rename_i e
      simp only [Option.some.injEq] at h
      subst h
      exact ⟨rfl, rfl, e.1.symm, rfl⟩
    · exact absurd h (by simp)
  | fetch u =>
    simp only [downcast] at h
    split at h
    · rename_i e
      exact tryFetch_refers h e.symm
    · exact absurd h (by simp)

/-- A downcast succeeds exactly if the buffer can be referred to in that way. -/
theorem downcast_iff (g : Reg Ty) (a : AnyRef E Ty) (k : Kind Ty) :
    (∃ r, downcast g a k = some r) ↔ Castable g a k := by
  cases k with
  | any => simp [downcast, Castable]
  | json => simp only [downcast, Castable]; split <;> simp [*]
  | buffer u => simp only [downcast, Castable]; split <;> simp [*]
  | cloneFrom u => simp only [downcast, Castable]; split <;> simp [*]
  | fetch u =>
    simp only [downcast, Castable]
    split
    · rename_i e
      subst e
      simp only [tryFetch, true_and]
      cases a.behavior with
      | pull => simp
      | clone => simp
    · simp [*]

theorem downcast_clone {g : Reg Ty} {a : AnyRef E Ty} {u : Ty} {r : Ref E Ty}
    (h : downcast g a (.cloneFrom u) = some r) : g.clone a.ty = true := by
  have := (downcast_iff g a (.cloneFrom u)).1 ⟨r, h⟩
  simp only [Castable] at this
  rw [this.1]
  exact this.2

/-- What one conversion keeps. -/
theorem conv_facts {tr : Traits Ty} {g g' : Reg Ty} {r r' : Ref E Ty} {c : Conv Ty} {b : Behavior}
    (h : conv tr g r c = (g', some r')) (hb : r.Joins b)
    (ht : ∀ u, c = .tryFetch u → u = r.ty) :
    r'.loc = r.loc ∧ r'.ty = r.ty ∧ r'.Joins (asked b [c]) := by
  cases c with
  | joinByCloning =>
    cases r with
    | buffer l t =>
      simp only [conv] at h
      split at h
      · simp only [Prod.mk.injEq, Option.some.injEq] at h
        obtain ⟨_, rfl⟩ := h
        exact ⟨rfl, rfl, rfl⟩
      · simp at h
    | cloneFrom l t => simp [conv] at h
    | fetch l t f b' => simp [conv] at h
    | any a =>
      simp only [conv, Prod.mk.injEq] at h
      obtain ⟨_, h⟩ := h
      split at h
      · simp only [Option.some.injEq] at h
        subst h
        exact ⟨rfl, rfl, rfl⟩
      · simp at h
    | json a =>
      simp only [conv, Prod.mk.injEq, Option.some.injEq] at h
      obtain ⟨_, rfl⟩ := h
      exact ⟨rfl, rfl, rfl⟩
  | joinByPulling =>
    cases r <;> simp only [conv, Prod.mk.injEq, Option.some.injEq, reduceCtorEq, and_false] at h <;>
      (obtain ⟨_, rfl⟩ := h; exact ⟨rfl, rfl, rfl⟩)
  | toAny =>
    simp only [conv, Prod.mk.injEq, Option.some.injEq] at h
    obtain ⟨_, rfl⟩ := h
    exact toAny_facts hb
  | toJson =>
    cases r with
    | buffer l t =>
      simp only [conv] at h
      split at h
      · simp only [Prod.mk.injEq, Option.some.injEq] at h
        obtain ⟨_, rfl⟩ := h
        exact ⟨rfl, rfl, hb.symm⟩
      · simp at h
    | cloneFrom l t =>
      simp only [conv] at h
      split at h
      · simp only [Prod.mk.injEq, Option.some.injEq] at h
        obtain ⟨_, rfl⟩ := h
        exact ⟨rfl, rfl, hb.symm⟩
      · simp at h
    | fetch l t f b' => simp [conv] at h
    | any a => simp [conv] at h
    | json a => simp [conv] at h
  | toFetch =>
    cases r with
    | buffer l t =>
      simp only [conv, Prod.mk.injEq, Option.some.injEq] at h
      obtain ⟨_, rfl⟩ := h
      exact ⟨rfl, rfl, hb.symm, hb.symm⟩
    | cloneFrom l t =>
      simp only [conv, Prod.mk.injEq, Option.some.injEq] at h
      obtain ⟨_, rfl⟩ := h
      exact ⟨rfl, rfl, hb.symm, hb.symm⟩
    | fetch l t f b' => simp [conv] at h
    | any a => simp [conv] at h
    | json a => simp [conv] at h
  | toBuffer =>
    cases r <;> simp only [conv, Prod.mk.injEq, Option.some.injEq, reduceCtorEq, and_false] at h <;>
      (obtain ⟨_, rfl⟩ := h; exact ⟨rfl, rfl, rfl⟩)
  | downcast k =>
    have hd : ∀ a : AnyRef E Ty, a.behavior = b → downcast g a k = some r' →
        r'.loc = a.loc ∧ r'.ty = a.ty ∧ r'.Joins (asked b [.downcast k]) := by
      intro a ha hd
      obtain ⟨_, h2, h3, h4⟩ := downcast_refers hd
      refine ⟨h2, h3, ?_⟩
      cases k <;> simp only [Kind.keeps] at h4 <;> simpa only [asked, ha] using h4
    cases r with
    | any a =>
      simp only [conv, Prod.mk.injEq] at h
      exact hd a hb h.2
    | json a =>
      simp only [conv, Prod.mk.injEq] at h
      exact hd a hb h.2
    | buffer l t => simp [conv] at h
    | cloneFrom l t => simp [conv] at h
    | fetch l t f b' => simp [conv] at h
  | downcastForMessage u =>
    cases r with
    | any a =>
      simp only [conv, Prod.mk.injEq] at h
      obtain ⟨_, h⟩ := h
      split at h
      · rename_i e
        simp only [Option.some.injEq] at h
        subst h
        exact ⟨rfl, e.symm, rfl⟩
      · simp at h
    | json a =>
      simp only [conv, Prod.mk.injEq] at h
      obtain ⟨_, h⟩ := h
      split at h
      · rename_i e
        simp only [Option.some.injEq] at h
        subst h
        exact ⟨rfl, e.symm, rfl⟩
      · simp at h
    | buffer l t => simp [conv] at h
    | cloneFrom l t => simp [conv] at h
    | fetch l t f b' => simp [conv] at h
  | tryFetch u =>
    have hu := ht u rfl
    cases r with
    | any a =>
      simp only [conv, Prod.mk.injEq] at h
      obtain ⟨_, h2, h3, h4⟩ := tryFetch_refers h.2 hu
      refine ⟨h2, h3, ?_⟩
      have hb' : a.behavior = b := hb
      simp only [Kind.keeps, hb'] at h4
      exact h4
    | json a => simp [conv] at h
    | buffer l t => simp [conv] at h
    | cloneFrom l t => simp [conv] at h
    | fetch l t f b' => simp [conv] at h
  | registerClone t =>
    simp only [conv, Prod.mk.injEq, Option.some.injEq] at h
    obtain ⟨_, rfl⟩ := h
    exact ⟨rfl, rfl, hb⟩
  | registerJson t =>
    simp only [conv, Prod.mk.injEq, Option.some.injEq] at h
    obtain ⟨_, rfl⟩ := h
    exact ⟨rfl, rfl, hb⟩

theorem asked_cons (b : Behavior) (c : Conv Ty) (cs : List (Conv Ty)) :
    asked b (c :: cs) = asked (asked b [c]) cs := by
  cases c <;> try rfl
  rename_i k
  cases k <;> rfl

theorem convs_facts {tr : Traits Ty} : ∀ {cs : List (Conv Ty)} {g g' : Reg Ty} {r r' : Ref E Ty}
    {b : Behavior}, convs tr g r cs = some (g', r') → r.Joins b → rightTypes r.ty cs →
    r'.loc = r.loc ∧ r'.ty = r.ty ∧ r'.Joins (asked b cs) ∧ g.le g'
  | [], g, g', r, r', b, h, hb, _ => by
    simp only [convs, Option.some.injEq, Prod.mk.injEq] at h
    obtain ⟨rfl, rfl⟩ := h
    exact ⟨rfl, rfl, hb, le_refl _⟩
  | c :: cs, g, g', r, r', b, h, hb, ht => by
    simp only [convs] at h
    have hle := conv_le tr g r c
    generalize hc : conv tr g r c = p at h hle
    obtain ⟨g1, o⟩ := p
    cases o with
    | none => simp at h
    | some r1 =>
      simp only at h
      obtain ⟨e1, e2, e3⟩ := conv_facts hc hb (fun u hu => ht u (by simp [hu]))
      obtain ⟨f1, f2, f3, f4⟩ := convs_facts h e3
        (fun u hu => by rw [e2]; exact ht u (List.mem_cons_of_mem _ hu))
      refine ⟨f1.trans e1, f2.trans e2, ?_, le_trans hle f4⟩
      rw [asked_cons]
      exact f3

/-- The kind of the reference is JSON. -/
def Ref.isJson : Ref E Ty → Bool
  | .json _ => true
  | _ => false

/-- What one conversion makes of a reference whose cloning is known. -/
theorem conv_known {tr : Traits Ty} {g g' : Reg Ty} {r r' : Ref E Ty} {c : Conv Ty}
    (h : conv tr g r c = (g', some r')) {b : Behavior} (hb : r.Joins b)
    (ht : ∀ u, c = .tryFetch u → u = r.ty)
    (hk : b = .clone → g.clone r.ty = true) (hj : r.isJson = true → c ≠ .joinByCloning) :
    asked b [c] = .clone → g'.clone r.ty = true := by
  have hle : g.le g' := by
    have := conv_le tr g r c
    rw [h] at this
    exact this
  have keep : asked b [c] = b → asked b [c] = .clone → g'.clone r.ty = true := by
    intro e e'
    exact hle.1 _ (hk (e ▸ e'))
  cases c with
  | joinByCloning =>
    intro _
    cases r with
    | buffer l t =>
      simp only [conv] at h
      split at h
      · simp only [Prod.mk.injEq] at h
        rw [← h.1]
        simp [Reg.addClone, Ref.ty]
      · simp at h
    | cloneFrom l t => simp [conv] at h
    | fetch l t f b' => simp [conv] at h
    | any a =>
      simp only [conv, Prod.mk.injEq] at h
      obtain ⟨rfl, h⟩ := h
      split at h
      · assumption
      · simp at h
    | json a => exact absurd rfl (hj rfl)
  | downcast k =>
    cases k with
    | cloneFrom u =>
      intro _
      cases r with
      | any a =>
        simp only [conv, Prod.mk.injEq] at h
        exact hle.1 _ (downcast_clone h.2)
      | json a =>
        simp only [conv, Prod.mk.injEq] at h
        exact hle.1 _ (downcast_clone h.2)
      | buffer l t => simp [conv] at h
      | cloneFrom l t => simp [conv] at h
      | fetch l t f b' => simp [conv] at h
    | buffer u => intro e; simp [asked] at e
    | any => exact keep rfl
    | json => exact keep rfl
    | fetch u => exact keep rfl
  | joinByPulling => intro e; simp [asked] at e
  | toBuffer => intro e; simp [asked] at e
  | downcastForMessage u => intro e; simp [asked] at e
  | toAny => exact keep rfl
  | toJson => exact keep rfl
  | toFetch => exact keep rfl
  | tryFetch u => exact keep rfl
  | registerClone t => exact keep rfl
  | registerJson t => exact keep rfl

/-- A conversion other than those that keep the kind gives the kind that `clonesJson`
assumes. -/
theorem conv_isJson {tr : Traits Ty} {g g' : Reg Ty} {r r' : Ref E Ty} {c : Conv Ty}
    {cs : List (Conv Ty)} (h : conv tr g r c = (g', some r'))
    (hj : clonesJson r.isJson (c :: cs) = false) :
    clonesJson r'.isJson cs = false ∧ (r.isJson = true → c ≠ .joinByCloning) := by
  cases c with
  | joinByCloning =>
    simp only [clonesJson, Bool.or_eq_false_iff] at hj
    refine ⟨?_, fun e => absurd (e.symm.trans hj.1) (by simp)⟩
    cases r with
    | buffer l t =>
      simp only [conv] at h
      split at h
      · simp only [Prod.mk.injEq, Option.some.injEq] at h
        rw [← h.2]
        exact hj.2
      · simp at h
    | cloneFrom l t => simp [conv] at h
    | fetch l t f b' => simp [conv] at h
    | any a =>
      simp only [conv, Prod.mk.injEq] at h
      obtain ⟨_, h⟩ := h
      split at h
      · simp only [Option.some.injEq] at h
        rw [← h]
        exact hj.2
      · simp at h
    | json a => exact absurd hj.1 (by simp [Ref.isJson])
  | joinByPulling =>
    refine ⟨?_, by simp⟩
    simp only [clonesJson] at hj
    cases r <;> simp only [conv, Prod.mk.injEq, Option.some.injEq, reduceCtorEq, and_false] at h <;>
      (rw [← h.2]; exact hj)
  | toAny =>
    refine ⟨?_, by simp⟩
    simp only [clonesJson] at hj
    simp only [conv, Prod.mk.injEq, Option.some.injEq] at h
    rw [← h.2]
    exact hj
  | toJson =>
    refine ⟨?_, by simp⟩
    simp only [clonesJson] at hj
    cases r with
    | buffer l t =>
      simp only [conv] at h
      split at h
      · simp only [Prod.mk.injEq, Option.some.injEq] at h
        rw [← h.2]
        exact hj
      · simp at h
    | cloneFrom l t =>
      simp only [conv] at h
      split at h
      · simp only [Prod.mk.injEq, Option.some.injEq] at h
        rw [← h.2]
        exact hj
      · simp at h
    | fetch l t f b' => simp [conv] at h
    | any a => simp [conv] at h
    | json a => simp [conv] at h
  | toFetch =>
    refine ⟨?_, by simp⟩
    simp only [clonesJson] at hj
    cases r <;> simp only [conv, Prod.mk.injEq, Option.some.injEq, reduceCtorEq, and_false] at h <;>
      (rw [← h.2]; exact hj)
  | toBuffer =>
    refine ⟨?_, by simp⟩
    simp only [clonesJson] at hj
    cases r <;> simp only [conv, Prod.mk.injEq, Option.some.injEq, reduceCtorEq, and_false] at h <;>
      (rw [← h.2]; exact hj)
  | downcast k =>
    refine ⟨?_, by simp⟩
    have hd : ∀ a : AnyRef E Ty, downcast g a k = some r' → clonesJson r'.isJson cs = false := by
      intro a ha
      have hk := (downcast_refers ha).1
      cases k <;> cases r' <;>
        first
          | (simp only [clonesJson] at hj; exact hj)
          | simp [Ref.kind] at hk
    cases r with
    | any a =>
      simp only [conv, Prod.mk.injEq] at h
      exact hd a h.2
    | json a =>
      simp only [conv, Prod.mk.injEq] at h
      exact hd a h.2
    | buffer l t => simp [conv] at h
    | cloneFrom l t => simp [conv] at h
    | fetch l t f b' => simp [conv] at h
  | downcastForMessage u =>
    refine ⟨?_, by simp⟩
    simp only [clonesJson] at hj
    cases r with
    | any a =>
      simp only [conv, Prod.mk.injEq] at h
      obtain ⟨_, h⟩ := h
      split at h
      · simp only [Option.some.injEq] at h
        rw [← h]
        exact hj
      · simp at h
    | json a =>
      simp only [conv, Prod.mk.injEq] at h
      obtain ⟨_, h⟩ := h
      split at h
      · simp only [Option.some.injEq] at h
        rw [← h]
        exact hj
      · simp at h
    | buffer l t => simp [conv] at h
    | cloneFrom l t => simp [conv] at h
    | fetch l t f b' => simp [conv] at h
  | tryFetch u =>
    refine ⟨?_, by simp⟩
    simp only [clonesJson] at hj
    cases r with
    | any a =>
      simp only [conv, Prod.mk.injEq, tryFetch] at h
      obtain ⟨_, h⟩ := h
      cases hb : a.behavior with
      | pull =>
        simp only [hb, Option.some.injEq] at h
        rw [← h]
        exact hj
      | clone =>
        simp only [hb] at h
        split at h
        · simp only [Option.some.injEq] at h
          rw [← h]
          exact hj
        · simp at h
    | json a => simp [conv] at h
    | buffer l t => simp [conv] at h
    | cloneFrom l t => simp [conv] at h
    | fetch l t f b' => simp [conv] at h
  | registerClone t =>
    refine ⟨?_, by simp⟩
    simp only [clonesJson] at hj
    simp only [conv, Prod.mk.injEq, Option.some.injEq] at h
    rw [← h.2]
    exact hj
  | registerJson t =>
    refine ⟨?_, by simp⟩
    simp only [clonesJson] at hj
    simp only [conv, Prod.mk.injEq, Option.some.injEq] at h
    rw [← h.2]
    exact hj

/-- A reference that is to be cloned has a type whose cloning is registered, unless
`JsonBuffer::join_by_cloning` was called. -/
theorem convs_known {tr : Traits Ty} : ∀ {cs : List (Conv Ty)} {g g' : Reg Ty} {r r' : Ref E Ty}
    {b : Behavior}, convs tr g r cs = some (g', r') → r.Joins b → rightTypes r.ty cs →
    (b = .clone → g.clone r.ty = true) → clonesJson r.isJson cs = false →
    asked b cs = .clone → g'.clone r.ty = true
  | [], g, g', r, r', b, h, _, _, hk, _ => by
    simp only [convs, Option.some.injEq, Prod.mk.injEq] at h
    obtain ⟨rfl, rfl⟩ := h
    exact hk
  | c :: cs, g, g', r, r', b, h, hb, ht, hk, hj => by
    simp only [convs] at h
    generalize hc : conv tr g r c = p at h
    obtain ⟨g1, o⟩ := p
    cases o with
    | none => simp at h
    | some r1 =>
      simp only at h
      have ht' : ∀ u, c = .tryFetch u → u = r.ty := fun u hu => ht u (by simp [hu])
      obtain ⟨e1, e2, e3⟩ := conv_facts hc hb ht'
      obtain ⟨j1, j2⟩ := conv_isJson hc hj
      have k1 := conv_known hc hb ht' hk j2
      rw [asked_cons, ← e2]
      exact convs_known h e3 (fun u hu => by rw [e2]; exact ht u (List.mem_cons_of_mem _ hu))
        (by rw [e2]; exact k1) j1

end

/-! ### Joins -/

section
variable {E Ty S : Type} [DecidableEq E] [DecidableEq Ty] [DecidableEq S]
variable {V : Ty → Type} {J : Type}

theorem storage_of {w : BufWorld E S V} {e : E} {t : Ty} {b : Storage S (V t)}
    (h : w e = some ⟨t, b⟩) : w.storage e t = some b := by
  simp [BufWorld.storage, h]

theorem stock_of {w : BufWorld E S V} {e : E} {t : Ty} {b : Storage S (V t)}
    (h : w e = some ⟨t, b⟩) (s : S) : stock w e s = (b.iter s).map fun x => ⟨t, x⟩ := by
  simp [stock, h]

theorem oldest_eq {T : Type} (b : Storage S T) (s : S) : b.oldest s = (b.iter s).head? := by
  unfold Storage.oldest Storage.iter
  cases b.queues s with
  | none => rfl
  | some q => simp

theorem newest_eq {T : Type} (b : Storage S T) (s : S) : b.newest s = (b.iter s).getLast? := by
  unfold Storage.newest Storage.iter
  cases b.queues s with
  | none => rfl
  | some q => simp

theorem pull_value {T : Type} (b : Storage S T) (s : S) : (b.pull s).2 = (b.iter s).head? := by
  unfold Storage.pull Storage.iter
  cases b.queues s with
  | none => rfl
  | some q => simp [Verif.Buffer.vecPop]

theorem pull_iter {T : Type} (b : Storage S T) (s s' : S) :
    (b.pull s).1.iter s' = if s' = s then (b.iter s').tail else b.iter s' := by
  by_cases e : s' = s
  · subst e
    rw [if_pos rfl]
    unfold Storage.pull Storage.iter
    cases h : b.queues s' with
    | none => simp [h]
    | some q => simp [Storage.set, Verif.Buffer.vecPop]
  · rw [if_neg e]
    unfold Storage.pull Storage.iter
    cases h : b.queues s with
    | none => rfl
    | some q => simp [Storage.set, e]

/-- Pulling from a buffer takes the oldest message of the session and nothing else. -/
theorem pullFrom_facts {w : BufWorld E S V} {e : E} {t : Ty} (h : IsBuffer w e t) (s : S) :
    ((pullFrom w e t s).2.map fun x => (⟨t, x⟩ : Box V)) = (stock w e s).head? ∧
    stock (pullFrom w e t s).1 = after (stock w) e s .pull := by
  obtain ⟨b, hb⟩ := h
  have h1 : pullFrom w e t s = (w.put e (b.pull s).1, (b.pull s).2) := by
    simp [pullFrom, storage_of hb]
  rw [h1]
  refine ⟨?_, ?_⟩
  · simp only [pull_value, stock_of hb, List.head?_map]
  · funext e' s'
    by_cases he : e' = e
    · subst he
      rw [stock_of (b := (b.pull s).1) (by simp [BufWorld.put]), pull_iter]
      by_cases hs : s' = s
      · subst hs
        simp [after, stock_of hb]
      · simp [after, hs, stock_of hb]
    · have : stock (w.put e (b.pull s).1) e' s' = stock w e' s' := by
        simp [stock, BufWorld.put, he]
      simp only [this, after, he, false_and, if_false]

theorem cloneFrom_facts {w : BufWorld E S V} {e : E} {t : Ty} (h : IsBuffer w e t) (s : S) :
    ((cloneFrom w e t s).map fun x => (⟨t, x⟩ : Box V)) = (stock w e s).head? := by
  obtain ⟨b, hb⟩ := h
  simp [cloneFrom, storage_of hb, oldest_eq, stock_of hb]

theorem after_clone (st : E → S → List (Box V)) (e : E) (s : S) : after st e s .clone = st := by
  funext e' s'
  simp [after]

theorem after_empty {st : E → S → List (Box V)} {e : E} {s : S} (h : st e s = [])
    (b : Behavior) : after st e s b = st := by
  funext e' s'
  simp only [after]
  split
  · rename_i hc
    rw [hc.1, hc.2.1, h]
    rfl
  · rfl

theorem asValue_map {t : Ty} (o : Option (V t)) :
    o.map (asValue (V := V) (J := J)) = (o.map fun x => (⟨t, x⟩ : Box V)).map .value := by
  cases o <;> rfl

/-- Pulling through a reference that does not show JSON. -/
theorem takes_pull {sd : Serde V J} {r : Ref E Ty} (hr : ∀ x, shown sd r.kind x = some (.value x))
    {w : BufWorld E S V} {e : E} {t : Ty} (h : IsBuffer w e t) (s : S) :
    TakesOldest sd r e .pull s w (pullFrom w e t s).1 ((pullFrom w e t s).2.map asValue) := by
  obtain ⟨h1, h2⟩ := pullFrom_facts h s
  unfold TakesOldest
  rw [asValue_map, h1, h2]
  cases hh : stock w e s with
  | nil => simpa using after_empty hh _
  | cons x xs => simp [hr]

theorem takes_clone {sd : Serde V J} {r : Ref E Ty} (hr : ∀ x, shown sd r.kind x = some (.value x))
    {w : BufWorld E S V} {e : E} {t : Ty} (h : IsBuffer w e t) (s : S) :
    TakesOldest sd r e .clone s w w ((cloneFrom w e t s).map asValue) := by
  have h1 := cloneFrom_facts h s
  unfold TakesOldest
  rw [asValue_map, h1]
  cases hh : stock w e s with
  | nil => simp
  | cons x xs => simp [hr, after_clone]

/-- What a join relies on that only references to JSON, and references made from them,
can miss. -/
def Plain (sd : Serde V J) (g : Reg Ty) (w : BufWorld E S V) (s : S) : Ref E Ty → Prop
  | .json a =>
    match a.behavior with
    | .pull => ∀ x, (stock w a.loc.source s).head? = some x → (sd.enc x.2).isSome
    | .clone => (stock w a.loc.source s).length ≤ 1
  | .any a => a.behavior = .clone → g.clone a.ty = true
  | _ => True

theorem map_box {t : Ty} (o : Option (V t)) (f : Box V → Option J) :
    o.bind (fun x => f ⟨t, x⟩) = (o.map fun x => (⟨t, x⟩ : Box V)).bind f := by
  cases o <;> rfl

/-- A join through any reference takes the oldest message. -/
theorem fetch_takes (sd : Serde V J) (g : Reg Ty) (w : BufWorld E S V) (s : S) (r : Ref E Ty)
    {b : Behavior} (hb : r.Joins b) (hw : IsBuffer w r.loc.source r.ty)
    (hp : Plain sd g w s r) :
    TakesOldest sd r r.loc.source b s w (fetch sd g w s r).1 (fetch sd g w s r).2 := by
  cases r with
  | buffer l t =>
    simp only [Ref.Joins] at hb
    subst hb
    exact takes_pull (fun _ => rfl) hw s
  | cloneFrom l t =>
    simp only [Ref.Joins] at hb
    subst hb
    exact takes_clone (fun _ => rfl) hw s
  | fetch l t f b' =>
    obtain ⟨rfl, rfl⟩ := hb
    cases b' with
    | pull => exact takes_pull (fun _ => rfl) hw s
    | clone => exact takes_clone (fun _ => rfl) hw s
  | any a =>
    obtain ⟨l, t, b'⟩ := a
    simp only [Ref.Joins] at hb
    subst hb
    cases b' with
    | pull => exact takes_pull (fun _ => rfl) hw s
    | clone =>
      have hg : g.clone t = true := hp rfl
      simp only [fetch, hg, if_true]
      exact takes_clone (fun _ => rfl) hw s
  | json a =>
    obtain ⟨l, t, b'⟩ := a
    simp only [Ref.Joins] at hb
    subst hb
    simp only [Ref.loc, Ref.ty] at hw ⊢
    cases b' with
    | pull =>
      obtain ⟨h1, h2⟩ := pullFrom_facts hw s
      have hp' : ∀ x, (stock w l.source s).head? = some x → (sd.enc x.2).isSome := hp
      simp only [fetch, TakesOldest, Ref.kind]
      have hv : ((pullFrom w l.source t s).2.bind sd.enc).map (Item.json (V := V))
          = (stock w l.source s).head?.bind (shown sd .json) := by
        rw [← h1]
        cases (pullFrom w l.source t s).2 <;> rfl
      rw [hv, h2]
      cases hh : (stock w l.source s).head? with
      | none =>
        simp only [Option.bind_none, true_and]
        exact after_empty (List.head?_eq_none_iff.1 hh) _
      | some x =>
        have := hp' x hh
        obtain ⟨j, hj⟩ := Option.isSome_iff_exists.1 this
        simp [shown, hj]
    | clone =>
      have hp' : (stock w l.source s).length ≤ 1 := hp
      obtain ⟨sto, hsto⟩ := hw
      have hst := stock_of hsto s
      simp only [fetch, storage_of hsto, TakesOldest, Ref.kind]
      have hn : sto.newest s = (sto.iter s).head? := by
        rw [newest_eq]
        rw [hst, List.length_map] at hp'
        match hq : sto.iter s, hp' with
        | [], _ => rfl
        | [x], _ => rfl
      have hv : ((sto.newest s).bind sd.enc).map (Item.json (V := V))
          = (stock w l.source s).head?.bind (shown sd .json) := by
        rw [hn, hst, List.head?_map]
        cases (sto.iter s).head? <;> rfl
      rw [hv]
      cases (stock w l.source s).head?.bind (shown sd .json) with
      | none => simp
      | some i => exact ⟨rfl, (after_clone _ _ _).symm⟩

/-- A join leaves the entities and their types alone. -/
theorem fetch_isBuffer (sd : Serde V J) (g : Reg Ty) (w : BufWorld E S V) (s : S) (r : Ref E Ty)
    {e : E} {t : Ty} (h : IsBuffer w e t) : IsBuffer (fetch sd g w s r).1 e t := by
  have hp : ∀ e' t', IsBuffer (pullFrom w e' t' s).1 e t := by
    intro e' t'
    unfold pullFrom
    cases hs : w.storage e' t' with
    | none => exact h
    | some b =>
      simp only
      by_cases he : e = e'
      · subst he
        obtain ⟨b', hb'⟩ := h
        have ht : t = t' := by
          unfold BufWorld.storage at hs
          rw [hb'] at hs
          simp only at hs
          split at hs
          · assumption
          · simp at hs
        subst ht
        exact ⟨(b.pull s).1, by simp [BufWorld.put]⟩
      · obtain ⟨b', hb'⟩ := h
        exact ⟨b', by simp [BufWorld.put, he, hb']⟩
  cases r with
  | buffer l u => exact hp _ _
  | cloneFrom l u => exact h
  | fetch l u f b =>
    cases f with
    | pull => exact hp _ _
    | clone => exact h
  | any a =>
    simp only [fetch]
    split
    · exact hp _ _
    · split <;> exact h
  | json a =>
    simp only [fetch]
    split
    · exact hp _ _
    · split <;> exact h

end

end Verif.Refs
