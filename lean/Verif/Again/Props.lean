import Verif.Again.Spec
/-
C133: what serves requests can be used again.
-/
namespace Verif.Again

variable {S Q P : Type}

theorem finish_becomes (t : Turn) (hk : t.kept = false) (p : P) : Becomes t p (finish t p) := by
  unfold finish
  cases hu : t.unused <;> cases hs : t.source <;> cases ht : t.target <;> simp <;>
    first
      | exact .answered ht hk (by simp [hu, hs])
      | exact .broken (by simp [ht, hu, hs])

theorem kept_becomes (t : Turn) (p : P) : Becomes t p (if t.kept then .broken else finish t p) := by
  cases hk : t.kept with
  | true => exact .broken (.inr (.inl hk))
  | false => exact finish_becomes t hk p

/-- The state of the system in a provider. -/
def Holds : Store S → Option S → Prop
  | .uninit s, r => r = some s
  | .stored (some s), r => r = some s
  | .stored none, _ => False
  | .removed, _ => False
  | .despawned, r => r = none

theorem service_works (sys : S → Q → S × P) (l : List (Option Q × Turn)) (hl : LetsGo l)
    (hw : Whole l) : ∀ (st : Store S) (s : Option S), Holds st s →
      ∃ r, Works sys s l (runAll (fun st x => serve sys st x.1 x.2) st l).2 r ∧
        Holds (runAll (fun st x => serve sys st x.1 x.2) st l).1 r := by
  induction l with
  | nil => exact fun st s h => ⟨s, .done s, h⟩
  | cons x l ih =>
    intro st s h
    have hk : x.2.kept = false := hl x List.mem_cons_self
    have hw' : x.2.removes ≠ some .storage := hw x List.mem_cons_self
    have ih := ih (fun y hy => hl y (List.mem_cons_of_mem _ hy)) fun y hy => hw y (List.mem_cons_of_mem _ hy)
    obtain ⟨q, t⟩ := x
    cases q with
    | none =>
      obtain ⟨r, h1, h2⟩ := ih st s h
      exact ⟨r, .idle h1, h2⟩
    | some q =>
      have main : ∀ s', serve sys st (some q) t = serveWith sys s' q t → s = some s' →
          ∃ r, Works sys s ((some q, t) :: l)
            (runAll (fun st x => serve sys st x.1 x.2) st ((some q, t) :: l)).2 r ∧
            Holds (runAll (fun st x => serve sys st x.1 x.2) st ((some q, t) :: l)).1 r := by
        intro s' hs e
        subst e
        have hk' : t.kept = false := hk
        simp only [runAll, hs, serveWith, hk', Bool.false_eq_true, if_false]
        obtain ⟨r, h1, h2⟩ := ih ((during t).putBack (sys s' q).1)
          (if t.removes.isSome then none else some (sys s' q).1) (by
            have hw'' : t.removes ≠ some .storage := hw'
            unfold during
            cases hr : t.removes with
            | none => simp [Store.putBack, Holds]
            | some x =>
              cases x with
              | storage => exact absurd hr hw''
              | entity => simp [Store.putBack, Holds])
        exact ⟨r, .served (finish_becomes t hk' _) h1, h2⟩
      cases st with
      | uninit s' => exact main s' rfl h
      | stored o =>
        cases o with
        | none => exact absurd h (by simp [Holds])
        | some s' => exact main s' rfl h
      | removed => exact absurd h (by simp [Holds])
      | despawned =>
        have e : s = none := h
        subst e
        obtain ⟨r, h1, h2⟩ := ih .despawned none rfl
        exact ⟨r, .gone h1, h2⟩

/-! ### The property -/

/-- C133 of services, as long as no system keeps a stream buffer and none removes only the component that it
is in: over all requests the service does what its system does, each response getting to its target if that
is still there, and requests that come when the service was removed are disposed of. -/
theorem C133_service_partial (sys : S → Q → S × P) (s : S) (l : List (Option Q × Turn)) (hl : LetsGo l)
    (hw : Whole l) :
    ∃ r, Works sys (some s) l (runAll (fun st x => serve sys st x.1 x.2) (.uninit s) l).2 r :=
  (service_works sys l hl hw (.uninit s) (some s) rfl).imp fun _ h => h.1

/-- C133 of services: no request panics if no system keeps a stream buffer. -/
theorem C133_no_panic_partial (sys : S → Q → S × P) (s : S) (l : List (Option Q × Turn)) (hl : LetsGo l) :
    .panic ∉ (runAll (fun st x => serve sys st x.1 x.2) (.uninit s) l).2 := by
  have key : ∀ st : Store S, st ≠ .stored none →
      .panic ∉ (runAll (fun st x => serve sys st x.1 x.2) st l).2 := by
    induction l with
    | nil => simp [runAll]
    | cons x l ih =>
      intro st hst
      have hk : x.2.kept = false := hl x List.mem_cons_self
      have ih := ih fun y hy => hl y (List.mem_cons_of_mem _ hy)
      obtain ⟨q, t⟩ := x
      have one : (serve sys st q t).1 ≠ .stored none ∧ (serve sys st q t).2 ≠ .panic := by
        have hk' : t.kept = false := hk
        have main : ∀ s' q', (serveWith sys s' q' t).1 ≠ .stored none ∧ (serveWith sys s' q' t).2 ≠ .panic := by
          intro s' q'
          simp only [serveWith, hk', Bool.false_eq_true, if_false]
          refine ⟨?_, ?_⟩
          · unfold during
            cases t.removes with
            | none => simp [Store.putBack]
            | some x => cases x <;> simp [Store.putBack]
          · have hb := finish_becomes t hk' (sys s' q').2
            revert hb
            generalize finish t (sys s' q').2 = x
            intro hb
            cases hb <;> simp
        cases q with
        | none => exact ⟨hst, by simp [serve]⟩
        | some q =>
          cases st with
          | uninit s' => exact main s' q
          | stored o =>
            cases o with
            | none => exact absurd rfl hst
            | some s' => exact main s' q
          | removed => simp [serve]
          | despawned => simp [serve]
      change .panic ∉ (serve sys st q t).2 :: (runAll _ (serve sys st q t).1 l).2
      rw [List.mem_cons, not_or]
      exact ⟨fun e => one.2 e.symm, ih _ one.1⟩
  exact key _ (by simp)

theorem works_no_panic {sys : S → Q → S × P} {s r : Option S} {l : List (Option Q × Turn)}
    {o : List (Out P)} (h : Works sys s l o r) : .panic ∉ o ∧ .lost ∉ o := by
  induction h with
  | done => simp
  | idle _ ih => simpa using ih
  | served hx _ ih => cases hx <;> simpa using ih
  | gone _ ih => simpa using ih

/-- C133 of maps, also if stream buffers are kept: only the request itself is lost. The map is there at the
end, in the state that all the requests made. -/
theorem C133_map (sys : S → Q → S × P) (l : List (Option Q × Turn)) (hl : Stays l) (s : S) :
    ∃ r, Works sys (some s) l (runAll (fun f x => callMap sys f x.1 x.2) (some s) l).2 (some r) ∧
      (runAll (fun f x => callMap sys f x.1 x.2) (some s) l).1 = some r := by
  induction l generalizing s with
  | nil => exact ⟨s, .done _, rfl⟩
  | cons x l ih =>
    have hr : x.2.removes = none := hl x List.mem_cons_self
    have ih := ih fun y hy => hl y (List.mem_cons_of_mem _ hy)
    obtain ⟨q, t⟩ := x
    cases q with
    | none =>
      obtain ⟨r, h1, h2⟩ := ih s
      exact ⟨r, .idle h1, h2⟩
    | some q =>
      obtain ⟨r, h1, h2⟩ := ih (sys s q).1
      have hr' : t.removes = none := hr
      exact ⟨r, .served (kept_becomes t _) (by rw [if_neg (by simp [hr'])]; exact h1), h2⟩

/-- C133 of callbacks, also if stream buffers are kept: no request is queued, and the callback is available
at the end. -/
theorem C133_callback (sys : S → Q → S × P) (l : List (Option Q × Turn)) (hl : Stays l) (s : S) :
    ∃ r o, Works sys (some s) l o (some r) ∧
      runAll (fun c x => callCallback sys c x.1 x.2) (some s) l = (some r, o.map some) := by
  induction l generalizing s with
  | nil => exact ⟨s, [], .done _, rfl⟩
  | cons x l ih =>
    have hr : x.2.removes = none := hl x List.mem_cons_self
    have ih := ih fun y hy => hl y (List.mem_cons_of_mem _ hy)
    obtain ⟨q, t⟩ := x
    cases q with
    | none =>
      obtain ⟨r, o, h1, h2⟩ := ih s
      refine ⟨r, .notReady :: o, .idle h1, ?_⟩
      change ((runAll _ (some s) l).1, some Out.notReady :: (runAll _ (some s) l).2) = _
      rw [h2]
      rfl
    | some q =>
      obtain ⟨r, o, h1, h2⟩ := ih (sys s q).1
      have hr' : t.removes = none := hr
      refine ⟨r, _ :: o, .served (kept_becomes t _) (by rw [if_neg (by simp [hr'])]; exact h1), ?_⟩
      change ((runAll _ (some (sys s q).1) l).1, _ :: (runAll _ (some (sys s q).1) l).2) = _
      rw [h2]
      rfl

/-- What `Works` says of the responses, in other words: if nothing is removed or kept and all targets stay,
they are those of the system, run over all requests. -/
theorem works_answers {sys : S → Q → S × P} {s r : Option S} {l : List (Option Q × Turn)} {o : List (Out P)}
    (h : Works sys s l o r) (s' : S) (hs : s = some s') (hq : ∀ x ∈ l, x.2 = {}) (hi : ∀ x ∈ l, x.1 ≠ none) :
    o = (runAll sys s' (l.filterMap (·.1))).2.map .answered := by
  induction h generalizing s' with
  | done => rfl
  | @idle _ _ t l _ _ _ => exact absurd rfl (hi (none, t) List.mem_cons_self)
  | @served s _ q t l x o hx _ ih =>
    cases hs
    have ht : t = {} := hq (some q, t) List.mem_cons_self
    subst ht
    have := ih (sys s q).1 rfl (fun y hy => hq y (List.mem_cons_of_mem _ hy))
      (fun y hy => hi y (List.mem_cons_of_mem _ hy))
    subst this
    cases hx with
    | answered => rfl
    | broken h => simp at h
  | gone => cases hs

/-- C133 in short, for services: they answer all requests as their system does. -/
theorem C133_answers (sys : S → Q → S × P) (s : S) (l : List Q) :
    (runAll (fun st x => serve sys st x.1 x.2) (.uninit s) (l.map fun q => (some q, {}))).2 =
      (runAll sys s l).2.map .answered := by
  obtain ⟨r, h⟩ := C133_service_partial sys s (l.map fun q => (some q, {})) (by
    intro x hx
    obtain ⟨q, _, rfl⟩ := List.mem_map.1 hx
    rfl) (by
    intro x hx
    obtain ⟨q, _, rfl⟩ := List.mem_map.1 hx
    simp)
  have := works_answers h s rfl (by
    intro x hx
    obtain ⟨q, _, rfl⟩ := List.mem_map.1 hx
    rfl) (by
    intro x hx
    obtain ⟨q, _, rfl⟩ := List.mem_map.1 hx
    simp)
  rw [this, List.filterMap_map]
  congr 3
  exact List.filterMap_some

/-! ### Where it is false -/

/-- C133 in full, of services. -/
def C133_full : Prop := ∀ (S Q P : Type) (sys : S → Q → S × P) (s : S) (l : List (Option Q × Turn)),
  ∃ r, Works sys (some s) l (runAll (fun st x => serve sys st x.1 x.2) (.uninit s) l).2 r

/-- C133 is false of a service whose system keeps a stream buffer once: that request is reported as broken,
and every later one panics, whoever makes it, as the system was not put back. -/
theorem C133_kept_violated (sys : S → Q → S × P) (s : S) (before : List (Option Q × Turn))
    (hb : LetsGo before) (hs : Stays before) (q q' : Q) (t : Turn) (hk : t.kept = true)
    (hr : t.removes = none) (between : List Turn) (t' : Turn) :
    let st := (runAll (fun st x => serve sys st x.1 x.2) (.uninit s) before).1
    (serve sys st (some q) t).2 = .broken ∧
    (serve sys (runAll (fun st x => serve sys st x.1 x.2) (serve sys st (some q) t).1
      (between.map fun t => (some q', t))).1 (some q') t').2 = .panic := by
  intro st
  have works_stays : ∀ {s r : Option S} {l : List (Option Q × Turn)} {o : List (Out P)},
      Works sys s l o r → Stays l → s.isSome → r.isSome := by
    intro s r l o h
    induction h with
    | done => exact fun _ h => h
    | idle _ ih => exact fun hs h => ih (fun y hy => hs y (List.mem_cons_of_mem _ hy)) h
    | @served s _ q t l _ _ _ _ ih =>
      intro hs _
      have : t.removes = none := hs (some q, t) List.mem_cons_self
      exact ih (fun y hy => hs y (List.mem_cons_of_mem _ hy)) (by simp [this])
    | gone => exact fun _ h => absurd h (by simp)
  have key : ∃ s', serve sys st (some q) t = serveWith sys s' q t := by
    obtain ⟨r, h1, h2⟩ := service_works sys before hb (fun x hx => by simp [hs x hx]) (.uninit s) (some s) rfl
    have hsome := works_stays h1 hs rfl
    change Holds st r at h2
    cases hst : st with
    | uninit s' => exact ⟨s', rfl⟩
    | stored o =>
      cases o with
      | none => rw [hst] at h2; exact h2.elim
      | some s' => exact ⟨s', rfl⟩
    | removed => rw [hst] at h2; exact h2.elim
    | despawned => rw [hst] at h2; cases (show r = none from h2); simp at hsome
  obtain ⟨s', e⟩ := key
  have e' : serve sys st (some q) t = (.stored none, .broken) := by
    rw [e]
    simp [serveWith, hk, during, hr]
  rw [e']
  refine ⟨rfl, ?_⟩
  have stuck : ∀ l : List Turn, (runAll (fun st x => serve sys st x.1 x.2) (Store.stored none)
      (l.map fun t => (some q', t))).1 = .stored none := by
    intro l
    induction l with
    | nil => rfl
    | cons t l ih => simpa [runAll, serve] using ih
  rw [stuck]
  rfl

/-- C133 is false of a service from which only the component with the system was removed: every request is
taken before that is noticed, and is neither answered nor disposed of. -/
theorem C133_removed_violated (sys : S → Q → S × P) (s : S) (q : Q) (t : Turn)
    (hr : t.removes = some .storage) (l : List (Q × Turn)) :
    (runAll (fun st x => serve sys st x.1 x.2) (serve sys (.uninit s) (some q) t).1
      (l.map fun x => (some x.1, x.2))).2 = l.map fun _ => .lost := by
  have e : (serve sys (.uninit s) (some q) t).1 = .removed := by
    simp only [serve, serveWith, during, hr]
    cases t.kept <;> rfl
  rw [e]
  induction l with
  | nil => rfl
  | cons x l ih => simpa [runAll, serve] using ih

/-- C133 in full is false. -/
theorem C133_violated : ¬ C133_full := by
  intro h
  obtain ⟨r, h⟩ := h Unit Unit Unit (fun _ _ => ((), ())) () [(some (), { kept := true }), (some (), {})]
  exact (works_no_panic h).1 (by decide)

/-! ### Examples -/

/-- A counter: it answers with the number of requests. -/
def counter : Nat → Unit → Nat × Nat := fun n _ => (n + 1, n + 1)

/-- The hypotheses of `C133_service_partial` are met by a run in which a target is missing once, and in the
end the service removes itself. -/
example : LetsGo [(some (), {}), (some (), { target := false }), (none, {}), (some (), { removes := some .entity }),
      (some (), {})] ∧
    Whole [(some (), {}), (some (), { target := false }), (none, {}), (some (), { removes := some .entity }),
      (some (), {})] ∧
    (runAll (fun st x => serve counter st x.1 x.2) (.uninit 0) [(some (), {}), (some (), { target := false }),
      (none, {}), (some (), { removes := some .entity }), (some (), {})]).2 =
    [.answered 1, .broken, .notReady, .answered 3, .disposed] := by
  exact ⟨by unfold LetsGo; decide, by unfold Whole; decide, by decide⟩

/-- The same request that stops a service does not stop a map or a callback. -/
example :
    (runAll (fun st x => serve counter st x.1 x.2) (.uninit 0)
      [(some (), {}), (some (), { kept := true }), (some (), {})]).2 = [.answered 1, .broken, .panic] ∧
    (runAll (fun st x => callMap counter st x.1 x.2) (some 0)
      [(some (), {}), (some (), { kept := true }), (some (), {})]).2 = [.answered 1, .broken, .answered 3] ∧
    (runAll (fun st x => callCallback counter st x.1 x.2) (some 0)
      [(some (), {}), (some (), { kept := true }), (some (), {})]).2 =
      [some (.answered 1), some .broken, some (.answered 3)] := by
  decide

/-- What comes of it when only the component is removed. -/
example : (runAll (fun st x => serve counter st x.1 x.2) (.uninit 0)
    [(some (), { removes := some .storage }), (some (), {})]).2 = [.answered 1, .lost] := by decide

/-- The hypotheses of `C133_map` and `C133_callback` are met. -/
example : Stays [(some (), {}), (some (), { kept := true }), (none, { target := false })] := by
  unfold Stays; decide

end Verif.Again
