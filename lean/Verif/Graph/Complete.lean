import Verif.Graph.Lemmas

/-
Completeness of the upstream search.
-/
namespace Verif.Graph

set_option linter.unusedSimpArgs false
set_option linter.unnecessarySimpa false

/-! ### No `Broken` in a sane world -/

/-- The query never fails and asks only about members of `S`. -/
def AsksIn (S : List Nat) : Query → Prop
  | .ret _ => True
  | .fail => False
  | .ask n k => n ∈ S ∧ ∀ b, AsksIn S (k b)

theorem asksIn_any {S : List Nat} {rest : Query} :
    ∀ {is : List Nat}, (∀ i ∈ is, i ∈ S) → AsksIn S rest → AsksIn S (Query.any is rest)
  | [], _, hr => hr
  | i :: is, h, hr => by
    refine ⟨h i (by simp), fun b => ?_⟩
    cases b
    · simpa using asksIn_any (is := is) (fun j hj => h j (by simp [hj])) hr
    · simp [AsksIn]

theorem asksIn_join {S : List Nat} {s : Nat} :
    ∀ {is : List (Nat × (Nat → Nat))}, (∀ p ∈ is, p.1 ∈ S) → AsksIn S (Query.join s is)
  | [], _ => trivial
  | p :: is, h => by
    have ih := asksIn_join (s := s) (is := is) (fun q hq => h q (by simp [hq]))
    refine ⟨h p (by simp), fun b => ?_⟩
    cases b
    · by_cases h0 : p.2 s = 0
      · simp [h0, AsksIn]
      · simpa [h0] using ih
    · simpa using ih

theorem asksIn_accessors {S : List Nat} {s : Nat} {as : List (Nat × (Nat → Bool))}
    {rest : Query} (h : ∀ a ∈ as, a.1 ∈ S) (hr : AsksIn S rest) :
    AsksIn S (Query.accessors s as rest) := by
  unfold Query.accessors
  by_cases ha : as.any (fun a => a.2 s) = true
  · simp [ha, AsksIn]
  · simp only [ha]
    refine asksIn_any ?_ hr
    intro i hi
    obtain ⟨a, ha, rfl⟩ := List.mem_map.mp hi
    exact h a ha

theorem asksIn_opening {S : List Nat} {yes no : Query} (hy : AsksIn S yes) (hn : AsksIn S no) :
    ∀ {gs : List (Nat × Bool)}, (∀ g ∈ gs, g.1 ∈ S) → AsksIn S (Query.opening gs yes no)
  | [], _ => hn
  | g :: gs, h => by
    have ih := asksIn_opening hy hn (gs := gs) (fun q hq => h q (by simp [hq]))
    unfold Query.opening
    by_cases hg : g.2 = true
    · simp only [hg, if_true]
      refine ⟨h g (by simp), fun b => ?_⟩
      cases b
      · simpa using ih
      · simpa using hy
    · simpa [hg] using ih

theorem asksIn_query {s : Nat} {op : Op} (h : op ≠ .broken) : AsksIn op.sources (op.query s) := by
  cases op with
  | plain a is =>
    unfold Op.query
    by_cases ha : a s = true
    · simp [ha, AsksIn]
    · simp only [ha]
      exact asksIn_any (fun i hi => hi) trivial
  | join is => exact asksIn_join (fun p hp => List.mem_map_of_mem hp)
  | buffer o gs as a is =>
    have hm : ∀ k ∈ as, k.1 ∈ (Op.buffer o gs as a is).sources := fun k hk => by
      have : k.1 ∈ as.map (·.1) := List.mem_map_of_mem hk
      simp only [Op.sources, List.mem_append]
      exact Or.inl (Or.inr this)
    have hg : ∀ k ∈ gs, k.1 ∈ (Op.buffer o gs as a is).sources := fun k hk => by
      have : k.1 ∈ gs.map (·.1) := List.mem_map_of_mem hk
      simp only [Op.sources, List.mem_append]
      exact Or.inl (Or.inl this)
    have hi : ∀ k ∈ is, k ∈ (Op.buffer o gs as a is).sources := fun k hk => by
      simp only [Op.sources, List.mem_append]
      exact Or.inr hk
    have hyes : AsksIn (Op.buffer o gs as a is).sources
        (if a s then .ret true else Query.accessors s as (Query.any is (.ret false))) := by
      by_cases ha : a s = true
      · simp [ha, AsksIn]
      · simp only [ha]
        exact asksIn_accessors hm (asksIn_any (rest := .ret false) hi trivial)
    unfold Op.query
    dsimp only
    by_cases ho : o s = true
    · simp only [ho, if_true]; exact hyes
    · simp only [ho]
      exact asksIn_opening hyes (asksIn_accessors (rest := .ret false) hm trivial) hg
  | broken => exact absurd rfl h

theorem interp_not_broken {ask : Visited → Nat → Res × Visited} {S : List Nat}
    (h : ∀ v n, n ∈ S → (ask v n).1 ≠ .broken) :
    ∀ (q : Query) (v : Visited), AsksIn S q → (interp ask q v).1 ≠ .broken := by
  intro q
  induction q with
  | ret b => intro v _; simp [interp]
  | fail => intro v hq; exact absurd hq (by simp [AsksIn])
  | ask n k ih =>
    intro v hq
    have h1 := h v n hq.1
    simp only [interp]
    generalize ask v n = r at h1 ⊢
    obtain ⟨r, v'⟩ := r
    cases r with
    | ok b => exact ih b v' (hq.2 b)
    | broken => simp at h1
    | unfinished => simp

theorem check_not_broken {w : World} (hs : Sane w) (s : Nat) :
    ∀ (f : Nat) (v : Visited) (n : Nat), w.lookup n ≠ none →
      (checkUpstream w s f v n).1 ≠ .broken := by
  intro f
  induction f with
  | zero => intro v n _; simp [checkUpstream]
  | succ f ih =>
    intro v n hn
    simp only [checkUpstream]
    cases hl : v.lookup n with
    | some b => simp
    | none =>
      cases hw : w.lookup n with
      | none => exact absurd hw hn
      | some op =>
        have h1 := interp_not_broken (ask := checkUpstream w s f) (S := op.sources)
          (fun v m hm => ih v m ((hs n op hw).2 m hm)) (op.query s) ((n, false) :: v)
          (asksIn_query (hs n op hw).1)
        dsimp only
        generalize interp (checkUpstream w s f) (op.query s) ((n, false) :: v) = r at h1 ⊢
        obtain ⟨r, v'⟩ := r
        cases r with
        | ok b => cases b <;> simp
        | broken => simp at h1
        | unfinished => simp

/-! ### Entries of the visited map -/

/-- Entries present before a call are the same after it. -/
theorem interp_persist {ask : Visited → Nat → Res × Visited}
    (h : ∀ v n m b, v.lookup m = some b → (ask v n).2.lookup m = some b) :
    ∀ (q : Query) (v : Visited) (m : Nat) (b : Bool), v.lookup m = some b →
      (interp ask q v).2.lookup m = some b := by
  intro q
  induction q with
  | ret _ => intro v m b hm; exact hm
  | fail => intro v m b hm; exact hm
  | ask n k ih =>
    intro v m b hm
    have h1 := h v n m b hm
    simp only [interp]
    generalize ask v n = r at h1 ⊢
    obtain ⟨r, v'⟩ := r
    cases r with
    | ok c => exact ih c v' m b h1
    | broken => exact h1
    | unfinished => exact h1

theorem lookup_cons_ne {A : Type} {v : List (Nat × A)} {m n : Nat} {a : A} (h : m ≠ n) :
    ((n, a) :: v).lookup m = v.lookup m := by
  have hb : (m == n) = false := by simp [h]
  rw [List.lookup_cons, hb]

theorem check_persist (w : World) (s : Nat) :
    ∀ (f : Nat) (v : Visited) (n m : Nat) (b : Bool), v.lookup m = some b →
      (checkUpstream w s f v n).2.lookup m = some b := by
  intro f
  induction f with
  | zero => intro v n m b h; exact h
  | succ f ih =>
    intro v n m b h
    simp only [checkUpstream]
    cases hl : v.lookup n with
    | some c => exact h
    | none =>
      have hne : m ≠ n := by
        rintro rfl
        rw [hl] at h
        cases h
      have h0 : ((n, false) :: v).lookup m = some b := by rw [lookup_cons_ne hne]; exact h
      cases hw : w.lookup n with
      | none => exact h0
      | some op =>
        have h1 := interp_persist ih (op.query s) _ m b h0
        dsimp only
        generalize interp (checkUpstream w s f) (op.query s) ((n, false) :: v) = r at h1 ⊢
        obtain ⟨r, v'⟩ := r
        cases r with
        | ok c => cases c with
          | true =>
            show ((n, true) :: v').lookup m = some b
            rw [lookup_cons_ne hne]; exact h1
          | false => exact h1
        | broken => exact h1
        | unfinished => exact h1

/-- The answer is recorded. -/
theorem check_records (w : World) (s f : Nat) (v : Visited) (n : Nat) (b : Bool)
    (h : (checkUpstream w s f v n).1 = .ok b) :
    (checkUpstream w s f v n).2.lookup n = some b := by
  cases f with
  | zero => simp [checkUpstream] at h
  | succ f =>
    simp only [checkUpstream] at h ⊢
    cases hl : v.lookup n with
    | some c => simp [hl] at h ⊢; exact h
    | none =>
      simp only [hl] at h ⊢
      cases hw : w.lookup n with
      | none => simp [hw] at h
      | some op =>
        simp only [hw] at h ⊢
        have h1 := interp_persist (check_persist w s f) (op.query s) ((n, false) :: v) n false
          List.lookup_cons_self
        generalize interp (checkUpstream w s f) (op.query s) ((n, false) :: v) = r at h h1 ⊢
        obtain ⟨r, v'⟩ := r
        cases r with
        | ok c => cases c with
          | true =>
            simp at h
            subst h
            exact List.lookup_cons_self
          | false =>
            simp at h
            subst h
            exact h1
        | broken => simp at h
        | unfinished => simp at h

/-! ### Operations without cycles upstream -/

/-- `q` answers false only if not `P`, provided that its questions are answered false
only about operations outside `L`. -/
def CompleteQ (L : Nat → Prop) (P : Prop) : Query → Prop
  | .ret b => b = false → ¬ P
  | .fail => True
  | .ask n k => CompleteQ L P (k true) ∧ (¬ L n → CompleteQ L P (k false))

theorem completeQ_any {L : Nat → Prop} {P : Prop} {rest : Query} :
    ∀ {is : List Nat}, ((∀ i ∈ is, ¬ L i) → CompleteQ L P rest) →
      CompleteQ L P (Query.any is rest)
  | [], hr => hr (by simp)
  | i :: is, hr => by
    refine ⟨by simp [CompleteQ], fun hi => ?_⟩
    have := completeQ_any (L := L) (P := P) (is := is) (rest := rest) (fun h => hr (by
      intro j hj
      rcases List.mem_cons.mp hj with rfl | hj
      · exact hi
      · exact h j hj))
    simpa using this

theorem completeQ_join {L : Nat → Prop} {P : Prop} {s : Nat} :
    ∀ {is : List (Nat × (Nat → Nat))}, (∀ p ∈ is, P → p.2 s = 0 → L p.1) →
      CompleteQ L P (Query.join s is)
  | [], _ => by simp [Query.join, CompleteQ]
  | p :: is, h => by
    have ih := completeQ_join (s := s) (is := is) (fun q hq => h q (by simp [hq]))
    refine ⟨by simpa using ih, fun hp => ?_⟩
    by_cases h0 : p.2 s = 0
    · simp only [h0, if_true]
      intro _ hP
      exact hp (h p (by simp) hP h0)
    · simpa [h0] using ih

theorem completeQ_accessors {L : Nat → Prop} {P : Prop} {s : Nat} {rest : Query}
    {as : List (Nat × (Nat → Bool))}
    (hr : (∀ a ∈ as, a.2 s = false) → (∀ a ∈ as, ¬ L a.1) → CompleteQ L P rest) :
    CompleteQ L P (Query.accessors s as rest) := by
  unfold Query.accessors
  by_cases h : as.any (fun a => a.2 s) = true
  · simp [h, CompleteQ]
  · simp only [h]
    refine completeQ_any (fun h' => hr ?_ ?_)
    · intro a ha
      cases hs : a.2 s with
      | false => rfl
      | true => exact absurd (List.any_eq_true.mpr ⟨a, ha, hs⟩) h
    · intro a ha
      exact h' a.1 (List.mem_map_of_mem ha)

theorem completeQ_opening {L : Nat → Prop} {P : Prop} {yes no : Query} (hy : CompleteQ L P yes) :
    ∀ {gs : List (Nat × Bool)}, ((∀ g, (g, true) ∈ gs → ¬ L g) → CompleteQ L P no) →
      CompleteQ L P (Query.opening gs yes no)
  | [], hn => hn (by simp)
  | g :: gs, hn => by
    unfold Query.opening
    by_cases hg : g.2 = true
    · simp only [hg, if_true]
      refine ⟨by simpa using hy, fun hL => ?_⟩
      simp only [Bool.false_eq_true, if_false]
      refine completeQ_opening hy (gs := gs) (fun h => hn ?_)
      intro g' hg'
      rcases List.mem_cons.mp hg' with h' | h'
      · subst h'; exact hL
      · exact h g' h'
    · simp only [hg]
      refine completeQ_opening hy (gs := gs) (fun h => hn ?_)
      intro g' hg'
      rcases List.mem_cons.mp hg' with h' | h'
      · subst h'; exact absurd rfl hg
      · exact h g' h'

theorem completeQ_query {w : World} {s n : Nat} {op : Op} (hw : w.lookup n = some op) :
    CompleteQ (Live w s) (Live w s n) (op.query s) := by
  cases op with
  | plain a is =>
    unfold Op.query
    by_cases ha : a s = true
    · simp [ha, CompleteQ]
    · simp only [ha]
      refine completeQ_any (fun h => ?_)
      intro _ hL
      cases hL <;> rename_i h' <;> simp_all
  | join is =>
    refine completeQ_join (fun p hp hL h0 => ?_)
    cases hL with
    | join h h' =>
      rw [hw] at h
      cases h
      exact h' p hp h0
    | _ => simp_all
  | buffer o gs as a is =>
    unfold Op.query
    dsimp only
    have hyes : CompleteQ (Live w s) (Live w s n)
        (if a s then .ret true else Query.accessors s as (Query.any is (.ret false))) := by
      by_cases ha : a s = true
      · simp [ha, CompleteQ]
      · simp only [ha]
        refine completeQ_accessors (fun h1 h2 => completeQ_any (fun h3 => ?_))
        intro _ hL
        cases hL with
        | keyUsed h hk hs => rw [hw] at h; cases h; simp [h1 _ hk] at hs
        | keyLive h hk hs => rw [hw] at h; cases h; exact h2 _ hk hs
        | openActive h _ ha' => rw [hw] at h; cases h; exact ha ha'
        | openInput h _ hi hL => rw [hw] at h; cases h; exact h3 _ hi hL
        | gateActive h _ _ ha' => rw [hw] at h; cases h; exact ha ha'
        | gateInput h _ _ hi hL => rw [hw] at h; cases h; exact h3 _ hi hL
        | _ => simp_all
    by_cases ho : o s = true
    · simp only [ho, if_true]; exact hyes
    · simp only [ho]
      refine completeQ_opening hyes (fun hg => completeQ_accessors (fun h1 h2 => ?_))
      intro _ hL
      cases hL with
      | keyUsed h hk hs => rw [hw] at h; cases h; simp [h1 _ hk] at hs
      | keyLive h hk hs => rw [hw] at h; cases h; exact h2 _ hk hs
      | openActive h ho' _ => rw [hw] at h; cases h; exact ho ho'
      | openInput h ho' _ _ => rw [hw] at h; cases h; exact ho ho'
      | gateActive h hg' hL _ => rw [hw] at h; cases h; exact hg _ hg' hL
      | gateInput h hg' hL _ _ => rw [hw] at h; cases h; exact hg _ hg' hL
      | _ => simp_all
  | broken => trivial

/-- Reflexive upstream relation. -/
def Up (w : World) (n m : Nat) : Prop := m = n ∨ Path (sources w) n m

theorem path_snoc {E : Nat → List Nat} {a b c : Nat} (h : Path E a b) (hc : c ∈ E b) :
    Path E a c := by
  induction h with
  | one h => exact .cons h (.one hc)
  | cons h _ ih => exact .cons h (ih hc)

theorem path_trans {E : Nat → List Nat} {a b c : Nat} (h : Path E a b) (h' : Path E b c) :
    Path E a c := by
  induction h with
  | one h => exact .cons h h'
  | cons h _ ih => exact .cons h (ih h')

theorem noCycle_irrefl {w : World} {n : Nat} (h : NoCycleUp w n) : ¬ Path (sources w) n n := by
  induction h with
  | intro n _ ih =>
    intro p
    cases p with
    | one h => exact ih n h (.one h)
    | cons h p => exact ih _ h (path_snoc p h)

theorem noCycle_source {w : World} {n m : Nat} (h : NoCycleUp w n) (hm : m ∈ sources w n) :
    NoCycleUp w m := Acc.inv h hm

/-- New false entries are about operations that are not live. -/
def FalseExt (w : World) (s : Nat) (v v' : Visited) : Prop :=
  ∀ m, v'.lookup m = some false → v.lookup m = some false ∨ ¬ Live w s m

/-- False entries upstream of `n` are right. -/
def RightUp (w : World) (s n : Nat) (v : Visited) : Prop :=
  ∀ m, Up w n m → v.lookup m = some false → ¬ Live w s m

theorem interp_exact {w : World} {s : Nat} {P : Prop} {S : List Nat}
    {ask : Visited → Nat → Res × Visited}
    (h : ∀ v n, n ∈ S → RightUp w s n v → ∀ b, (ask v n).1 = .ok b →
      (b = false → ¬ Live w s n) ∧ FalseExt w s v (ask v n).2) :
    ∀ (q : Query) (v : Visited), AsksIn S q → CompleteQ (Live w s) P q →
      (∀ n ∈ S, RightUp w s n v) → ∀ b, (interp ask q v).1 = .ok b →
      (b = false → ¬ P) ∧ FalseExt w s v (interp ask q v).2 := by
  intro q
  induction q with
  | ret c =>
    intro v _ hq _ b hb
    simp [interp] at hb
    subst hb
    exact ⟨hq, fun m hm => Or.inl hm⟩
  | fail => intro v hq; exact absurd hq (by simp [AsksIn])
  | ask n k ih =>
    intro v hS hq hv b hb
    have h1 := h v n hS.1 (hv n hS.1)
    simp only [interp] at hb ⊢
    generalize ask v n = r at h1 hb ⊢
    obtain ⟨r, v'⟩ := r
    cases r with
    | ok c =>
      have h2 := h1 c rfl
      have hv' : ∀ n ∈ S, RightUp w s n v' := by
        intro i hi m hm hl
        rcases h2.2 m hl with h' | h'
        · exact hv i hi m hm h'
        · exact h'
      have hk : CompleteQ (Live w s) P (k c) := by
        cases c with
        | true => exact hq.1
        | false => exact hq.2 (h2.1 rfl)
      have h3 := ih c v' (hS.2 c) hk hv' b hb
      refine ⟨h3.1, fun m hm => ?_⟩
      rcases h3.2 m hm with h' | h'
      · exact h2.2 m h'
      · exact Or.inr h'
    | broken => simp at hb
    | unfinished => simp at hb

theorem sources_of {w : World} {n : Nat} {op : Op} (h : w.lookup n = some op) :
    sources w n = op.sources := by
  simp [sources, h]

theorem check_exact {w : World} (hs : Sane w) (s : Nat) :
    ∀ (f : Nat) (v : Visited) (n : Nat), NoCycleUp w n → RightUp w s n v →
      ∀ b, (checkUpstream w s f v n).1 = .ok b →
      (b = false → ¬ Live w s n) ∧ FalseExt w s v (checkUpstream w s f v n).2 := by
  intro f
  induction f with
  | zero => intro v n _ _ b hb; simp [checkUpstream] at hb
  | succ f ih =>
    intro v n hc hv b hb
    simp only [checkUpstream] at hb ⊢
    cases hl : v.lookup n with
    | some c =>
      simp [hl] at hb
      subst hb
      refine ⟨fun h => hv n (Or.inl rfl) (by rw [hl, h]), fun m hm => Or.inl hm⟩
    | none =>
      cases hw : w.lookup n with
      | none => simp [hl, hw] at hb
      | some op =>
        have hsrc := sources_of hw
        have hv0 : ∀ m ∈ op.sources, RightUp w s m ((n, false) :: v) := by
          intro m hm k hk hlk
          have hp : Path (sources w) n k := by
            rcases hk with rfl | hk
            · exact .one (by rw [hsrc]; exact hm)
            · exact .cons (by rw [hsrc]; exact hm) hk
          have hne : k ≠ n := by
            rintro rfl
            exact noCycle_irrefl hc hp
          rw [lookup_cons_ne hne] at hlk
          exact hv k (Or.inr hp) hlk
        have h1 := interp_exact (ask := checkUpstream w s f) (S := op.sources)
          (P := Live w s n)
          (fun v m hm hr b hb => ih v m (noCycle_source hc (by rw [hsrc]; exact hm)) hr b hb)
          (op.query s) ((n, false) :: v) (asksIn_query (hs n op hw).1) (completeQ_query hw) hv0
        simp only [hl, hw] at hb ⊢
        generalize interp (checkUpstream w s f) (op.query s) ((n, false) :: v) = r at h1 hb ⊢
        obtain ⟨r, v'⟩ := r
        cases r with
        | ok c =>
          have h2 := h1 c rfl
          cases c with
          | true =>
            simp at hb
            subst hb
            refine ⟨by simp, fun m hm => ?_⟩
            have hm : ((n, true) :: v').lookup m = some false := hm
            by_cases hne : m = n
            · subst hne
              rw [List.lookup_cons_self] at hm
              cases hm
            · rw [lookup_cons_ne hne] at hm
              rcases h2.2 m hm with h' | h'
              · rw [lookup_cons_ne hne] at h'
                exact Or.inl h'
              · exact Or.inr h'
          | false =>
            simp at hb
            subst hb
            refine ⟨h2.1, fun m hm => ?_⟩
            by_cases hne : m = n
            · subst hne
              exact Or.inr (h2.1 rfl)
            · rcases h2.2 m hm with h' | h'
              · rw [lookup_cons_ne hne] at h'
                exact Or.inl h'
              · exact Or.inr h'
        | broken => simp at hb
        | unfinished => simp at hb

/-! ### Cycles of single-source operations -/

/-- Every question is answered true at once or leads on. -/
def DisjQ : Query → Prop
  | .ret _ => True
  | .fail => False
  | .ask _ k => k true = .ret true ∧ DisjQ (k false)

/-- The query answers false when all of its questions are answered false, and all of
them are about members of `D`. -/
def DeadQ (D : Nat → Prop) : Query → Prop
  | .ret b => b = false
  | .fail => False
  | .ask n k => D n ∧ DeadQ D (k false)

theorem disjQ_any {rest : Query} (hr : DisjQ rest) : ∀ is : List Nat, DisjQ (Query.any is rest)
  | [] => hr
  | _ :: is => ⟨by simp, by simpa using disjQ_any hr is⟩

theorem disjQ_accessors {s : Nat} {as : List (Nat × (Nat → Bool))} {rest : Query}
    (hr : DisjQ rest) : DisjQ (Query.accessors s as rest) := by
  unfold Query.accessors
  by_cases h : as.any (fun a => a.2 s) = true
  · simp [h, DisjQ]
  · simp only [h]; exact disjQ_any hr _

theorem opening_closed {yes no : Query} :
    ∀ {gs : List (Nat × Bool)}, (∀ g ∈ gs, g.2 = false) → Query.opening gs yes no = no
  | [], _ => rfl
  | g :: gs, h => by
    have hg := h g (by simp)
    unfold Query.opening
    simp only [hg]
    exact opening_closed (gs := gs) (fun g' hg' => h g' (by simp [hg']))

theorem disjQ_query {s : Nat} {op : Op} (hb : op ≠ .broken) (h : Single s op) :
    DisjQ (op.query s) := by
  cases op with
  | plain a is =>
    unfold Op.query
    by_cases ha : a s = true
    · simp [ha, DisjQ]
    · simp only [ha]; exact disjQ_any (rest := .ret false) trivial _
  | join is =>
    match is, h with
    | [], _ => trivial
    | [p], _ =>
      refine ⟨rfl, ?_⟩
      by_cases h0 : p.2 s = 0 <;> simp [h0, DisjQ, Query.join]
    | _ :: _ :: _, h => simp [Single] at h
  | buffer o gs as a is =>
    have hyes : DisjQ
        (if a s then .ret true else Query.accessors s as (Query.any is (.ret false))) := by
      by_cases ha : a s = true
      · simp [ha, DisjQ]
      · simp only [ha]
        exact disjQ_accessors (disjQ_any (rest := .ret false) trivial _)
    unfold Op.query
    dsimp only
    by_cases ho : o s = true
    · simp only [ho, if_true]; exact hyes
    · simp only [ho]
      rcases h with h | h
      · exact absurd h ho
      · rw [if_neg (by simp), opening_closed h]
        exact disjQ_accessors (rest := .ret false) trivial
  | broken => exact absurd rfl hb

theorem deadQ_any {D : Nat → Prop} {rest : Query} :
    ∀ {is : List Nat}, DeadQ D (Query.any is rest) → (∀ i ∈ is, D i) ∧ DeadQ D rest
  | [], h => ⟨by simp, h⟩
  | i :: is, h => by
    have h2 : DeadQ D (Query.any is rest) := by simpa [Query.any, DeadQ] using h.2
    have ih := deadQ_any h2
    refine ⟨?_, ih.2⟩
    intro j hj
    rcases List.mem_cons.mp hj with rfl | hj
    · exact h.1
    · exact ih.1 j hj

theorem deadQ_accessors {D : Nat → Prop} {s : Nat} {as : List (Nat × (Nat → Bool))}
    {rest : Query} (h : DeadQ D (Query.accessors s as rest)) :
    (∀ a ∈ as, a.2 s = false ∧ D a.1) ∧ DeadQ D rest := by
  unfold Query.accessors at h
  by_cases ha : as.any (fun a => a.2 s) = true
  · simp [ha, DeadQ] at h
  · simp only [ha] at h
    have h1 := deadQ_any h
    refine ⟨fun a hm => ⟨?_, h1.1 a.1 (List.mem_map_of_mem hm)⟩, h1.2⟩
    cases hs : a.2 s with
    | false => rfl
    | true => exact absurd (List.any_eq_true.mpr ⟨a, hm, hs⟩) ha

theorem deadQ_mono {D D' : Nat → Prop} (h : ∀ n, D n → D' n) :
    ∀ q : Query, DeadQ D q → DeadQ D' q := by
  intro q
  induction q with
  | ret b => exact id
  | fail => exact id
  | ask n k ih => intro hq; exact ⟨h n hq.1, ih false hq.2⟩

/-- A set of operations that are dead up to members of the set, or for another reason
not live, contains no live operation. -/
theorem dead_not_live {w : World} {s : Nat} {D : Nat → Prop}
    (hD : ∀ n, D n → ¬ Live w s n ∨
      ∃ op, w.lookup n = some op ∧ Single s op ∧ DeadQ D (op.query s)) :
    ∀ n, Live w s n → ¬ D n := by
  have hplain : ∀ n a is, w.lookup n = some (.plain a is) → D n → Live w s n →
      a s = false ∧ ∀ i ∈ is, D i := by
    intro n a is hw hn hL
    rcases hD n hn with h | ⟨op, h, _, hd⟩
    · exact absurd hL h
    · rw [hw] at h; cases h
      unfold Op.query at hd
      by_cases ha : a s = true
      · simp [ha, DeadQ] at hd
      · simp only [ha] at hd
        exact ⟨by simpa using ha, (deadQ_any hd).1⟩
  have hbuf : ∀ n o gs as a is, w.lookup n = some (.buffer o gs as a is) → D n → Live w s n →
      (∀ k ∈ as, k.2 s = false ∧ D k.1) ∧
      (o s = true → a s = false ∧ ∀ i ∈ is, D i) ∧
      (o s = true ∨ ∀ g ∈ gs, g.2 = false) := by
    intro n o gs as a is hw hn hL
    rcases hD n hn with h | ⟨op, h, hsg, hd⟩
    · exact absurd hL h
    · rw [hw] at h; cases h
      unfold Op.query at hd
      dsimp only at hd
      by_cases ho : o s = true
      · simp only [ho, if_true] at hd
        by_cases ha : a s = true
        · simp [ha, DeadQ] at hd
        · simp only [ha] at hd
          have h1 := deadQ_accessors hd
          exact ⟨h1.1, fun _ => ⟨by simpa using ha, (deadQ_any h1.2).1⟩, Or.inl ho⟩
      · rcases hsg with h | h
        · exact absurd h ho
        · simp only [ho] at hd
          rw [if_neg (by simp), opening_closed h] at hd
          exact ⟨(deadQ_accessors hd).1, fun h' => absurd h' ho, Or.inr h⟩
  intro n hL
  have hL0 := hL
  induction hL with
  | active hw ha =>
    intro hn
    have := (hplain _ _ _ hw hn hL0).1
    simp [ha] at this
  | input hw hi hLi ih =>
    intro hn
    exact ih hLi ((hplain _ _ _ hw hn hL0).2 _ hi)
  | @join n is hw h ih =>
    intro hn
    rcases hD _ hn with h' | ⟨op, h', hsg, hd⟩
    · exact h' hL0
    · rw [hw] at h'; cases h'
      match is, hsg with
      | [], _ => simp [Op.query, Query.join, DeadQ] at hd
      | [p], _ =>
        simp only [Op.query, Query.join, DeadQ] at hd
        by_cases h0 : p.2 s = 0
        · exact ih p (by simp) h0 (h p (by simp) h0) hd.1
        · simp [h0, DeadQ] at hd
      | _ :: _ :: _, hsg => simp [Single] at hsg
  | keyUsed hw hk hs =>
    intro hn
    have := ((hbuf _ _ _ _ _ _ hw hn hL0).1 _ hk).1
    simp [hs] at this
  | keyLive hw hk hs ih =>
    intro hn
    exact ih hs ((hbuf _ _ _ _ _ _ hw hn hL0).1 _ hk).2
  | openActive hw ho ha =>
    intro hn
    have := ((hbuf _ _ _ _ _ _ hw hn hL0).2.1 ho).1
    simp [ha] at this
  | openInput hw ho hi hLi ih =>
    intro hn
    exact ih hLi (((hbuf _ _ _ _ _ _ hw hn hL0).2.1 ho).2 _ hi)
  | gateActive hw hg hLg ha _ =>
    intro hn
    have h := hbuf _ _ _ _ _ _ hw hn hL0
    rcases h.2.2 with ho | ho
    · have := (h.2.1 ho).1
      simp [ha] at this
    · have := ho _ hg
      simp at this
  | gateInput hw hg hLg hi hLi _ ih =>
    intro hn
    have h := hbuf _ _ _ _ _ _ hw hn hL0
    rcases h.2.2 with ho | ho
    · exact ih hLi ((h.2.1 ho).2 _ hi)
    · have := ho _ hg
      simp at this

/-- False entries of operations without cycles upstream are right. -/
def RightAcyclic (w : World) (s : Nat) (v : Visited) : Prop :=
  ∀ m, NoCycleUp w m → v.lookup m = some false → ¬ Live w s m

/-- New false entries are right or dead with respect to the false entries of `v'`. -/
def DeadExt (w : World) (s : Nat) (v v' : Visited) : Prop :=
  ∀ m, v'.lookup m = some false → v.lookup m = some false ∨ ¬ Live w s m ∨
    ∃ op, w.lookup m = some op ∧ Single s op ∧
      DeadQ (fun d => v'.lookup d = some false) (op.query s)

theorem interp_dead {w : World} {s : Nat} {S : List Nat} {ask : Visited → Nat → Res × Visited}
    (hp : ∀ v n m b, v.lookup m = some b → (ask v n).2.lookup m = some b)
    (hrec : ∀ v n b, (ask v n).1 = .ok b → (ask v n).2.lookup n = some b)
    (h : ∀ v n, n ∈ S → RightAcyclic w s v → (ask v n).1 = .ok false →
      RightAcyclic w s (ask v n).2 ∧ DeadExt w s v (ask v n).2) :
    ∀ (q : Query) (v : Visited), AsksIn S q → DisjQ q → RightAcyclic w s v →
      (interp ask q v).1 = .ok false →
      RightAcyclic w s (interp ask q v).2 ∧ DeadExt w s v (interp ask q v).2 ∧
      DeadQ (fun d => (interp ask q v).2.lookup d = some false) q := by
  intro q
  induction q with
  | ret c =>
    intro v _ _ hv hb
    simp [interp] at hb
    exact ⟨hv, fun m hm => Or.inl hm, hb⟩
  | fail => intro v hq; exact absurd hq (by simp [AsksIn])
  | ask n k ih =>
    intro v hS hq hv hb
    have h1 := h v n hS.1 hv
    have hr1 := hrec v n
    have hpe := interp_persist hp
    simp only [interp] at hb ⊢
    generalize ask v n = r at h1 hb hr1 ⊢
    obtain ⟨r, v'⟩ := r
    cases r with
    | ok c =>
      cases c with
      | true =>
        have hb' : (interp ask (k true) v').1 = .ok false := hb
        rw [hq.1] at hb'
        simp [interp] at hb'
      | false =>
        have h2 := h1 rfl
        have h3 := ih false v' (hS.2 false) hq.2 h2.1 hb
        refine ⟨h3.1, fun m hm => ?_, hpe _ _ _ _ (hr1 false rfl), h3.2.2⟩
        rcases h3.2.1 m hm with h' | h'
        · rcases h2.2 m h' with h'' | h'' | ⟨op, ho, hsg, hd⟩
          · exact Or.inl h''
          · exact Or.inr (Or.inl h'')
          · exact Or.inr (Or.inr ⟨op, ho, hsg, deadQ_mono (fun d hd => hpe _ _ _ _ hd) _ hd⟩)
        · exact Or.inr h'
    | broken => simp at hb
    | unfinished => simp at hb

theorem check_dead {w : World} (hs : Sane w) (s : Nat)
    (hcond : ∀ n op, w.lookup n = some op → Single s op ∨ NoCycleUp w n) :
    ∀ (f : Nat) (v : Visited) (n : Nat), RightAcyclic w s v →
      (checkUpstream w s f v n).1 = .ok false →
      RightAcyclic w s (checkUpstream w s f v n).2 ∧
      DeadExt w s v (checkUpstream w s f v n).2 := by
  intro f
  induction f with
  | zero => intro v n _ hb; simp [checkUpstream] at hb
  | succ f ih =>
    intro v n hv hb
    by_cases hc : NoCycleUp w n
    · have hup : RightUp w s n v := by
        intro m hm hl
        refine hv m ?_ hl
        rcases hm with rfl | hm
        · exact hc
        · clear hl hb
          induction hm with
          | one h => exact noCycle_source hc h
          | cons h _ ih' => exact ih' (noCycle_source hc h)
      have h1 := check_exact hs s (f + 1) v n hc hup false hb
      refine ⟨fun m hm hl => ?_, fun m hm => ?_⟩
      · rcases h1.2 m hl with h' | h'
        · exact hv m hm h'
        · exact h'
      · rcases h1.2 m hm with h' | h'
        · exact Or.inl h'
        · exact Or.inr (Or.inl h')
    · simp only [checkUpstream] at hb ⊢
      cases hl : v.lookup n with
      | some c => exact ⟨hv, fun m hm => Or.inl hm⟩
      | none =>
        cases hw : w.lookup n with
        | none => simp [hl, hw] at hb
        | some op =>
          have hsg : Single s op := by
            rcases hcond n op hw with h | h
            · exact h
            · exact absurd h hc
          have hv0 : RightAcyclic w s ((n, false) :: v) := by
            intro m hm hlm
            have hne : m ≠ n := by rintro rfl; exact hc hm
            rw [lookup_cons_ne hne] at hlm
            exact hv m hm hlm
          have h1 := interp_dead (ask := checkUpstream w s f) (S := op.sources)
            (check_persist w s f) (check_records w s f) (fun v m _ hr hb => ih v m hr hb)
            (op.query s) ((n, false) :: v) (asksIn_query (hs n op hw).1)
            (disjQ_query (hs n op hw).1 hsg) hv0
          simp only [hl, hw] at hb ⊢
          generalize interp (checkUpstream w s f) (op.query s) ((n, false) :: v) = r at h1 hb ⊢
          obtain ⟨r, v'⟩ := r
          cases r with
          | ok c =>
            cases c with
            | true => simp at hb
            | false =>
              have h2 := h1 rfl
              refine ⟨h2.1, fun m hm => ?_⟩
              by_cases hne : m = n
              · subst hne
                exact Or.inr (Or.inr ⟨op, hw, hsg, h2.2.2⟩)
              · rcases h2.2.1 m hm with h' | h'
                · rw [lookup_cons_ne hne] at h'
                  exact Or.inl h'
                · exact Or.inr h'
          | broken => simp at hb
          | unfinished => simp at hb

theorem check_complete {w : World} (hs : Sane w) (s : Nat)
    (hcond : ∀ n op, w.lookup n = some op → Single s op ∨ NoCycleUp w n) (f n : Nat)
    (h : (checkUpstream w s f [] n).1 = .ok false) : ¬ Live w s n := by
  have h1 := check_dead hs s hcond f [] n (fun m _ hm => by simp at hm) h
  have h2 := check_records w s f [] n false h
  intro hL
  refine dead_not_live (D := fun d => (checkUpstream w s f [] n).2.lookup d = some false)
    ?_ n hL h2
  intro m hm
  rcases h1.2 m hm with h' | h'
  · simp at h'
  · exact h'

/-! ### Activity on a path -/

/-- Operations of which activity anywhere upstream is enough. -/
def Plain (s : Nat) : Op → Prop
  | .plain _ _ => True
  | .buffer isOpen gates _ _ _ => isOpen s = true ∧ gates = []
  | _ => False

theorem live_holds {w : World} {s : Nat} (hp : ∀ m op, w.lookup m = some op → Plain s op)
    {n : Nat} (hL : Live w s n) : ∃ m, (m = n ∨ Path (sources w) n m) ∧ holds w s m := by
  have ext : ∀ {n i : Nat}, i ∈ sources w n →
      (∃ m, (m = i ∨ Path (sources w) i m) ∧ holds w s m) →
      ∃ m, (m = n ∨ Path (sources w) n m) ∧ holds w s m := by
    rintro n i hi ⟨m, hm, h⟩
    refine ⟨m, Or.inr ?_, h⟩
    rcases hm with rfl | hm
    · exact .one hi
    · exact .cons hi hm
  induction hL with
  | @active n a is hw ha => exact ⟨n, Or.inl rfl, by simp [holds, hw, ha]⟩
  | input hw hi _ ih => exact ext (by rw [sources_of hw]; exact hi) ih
  | join hw _ _ => exact absurd (hp _ _ hw) (by simp [Plain])
  | @keyUsed n o gs as a is k hw hk hs =>
    exact ⟨n, Or.inl rfl, by
      simp only [holds, hw]
      exact Or.inr ⟨k, hk, hs⟩⟩
  | keyLive hw hk _ ih =>
    refine ext ?_ ih
    rw [sources_of hw]
    simp only [Op.sources, List.mem_append]
    exact Or.inl (Or.inr (List.mem_map_of_mem hk))
  | @openActive n _ _ _ _ _ hw _ ha => exact ⟨n, Or.inl rfl, by simp [holds, hw, ha]⟩
  | openInput hw _ hi _ ih =>
    refine ext ?_ ih
    rw [sources_of hw]
    simp only [Op.sources, List.mem_append]
    exact Or.inr hi
  | gateActive hw hg _ _ _ => have := (hp _ _ hw).2; subst this; simp at hg
  | gateInput hw hg _ _ _ _ _ => have := (hp _ _ hw).2; subst this; simp at hg

theorem holds_live {w : World} {s : Nat} (hp : ∀ m op, w.lookup m = some op → Plain s op)
    {m : Nat} (h : holds w s m) : Live w s m := by
  unfold holds at h
  cases hw : w.lookup m with
  | none => simp [hw] at h
  | some op =>
    simp only [hw] at h
    have hpl := hp m op hw
    cases op with
    | plain a is => exact .active hw h
    | join is => exact absurd hpl (by simp [Plain])
    | buffer o gs as a is =>
      rcases h with h | ⟨k, hk, hs⟩
      · exact .openActive hw hpl.1 h
      · exact .keyUsed hw hk hs
    | broken => exact absurd hpl (by simp [Plain])

theorem live_of_source {w : World} {s : Nat}
    (hp : ∀ m op, w.lookup m = some op → Plain s op) {n i : Nat} (hi : i ∈ sources w n)
    (hL : Live w s i) : Live w s n := by
  unfold sources at hi
  cases hw : w.lookup n with
  | none => simp [hw] at hi
  | some op =>
    simp only [hw] at hi
    have hpl := hp n op hw
    cases op with
    | plain a is => exact .input hw hi hL
    | join is => exact absurd hpl (by simp [Plain])
    | buffer o gs as a is =>
      simp only [Op.sources, hpl.2, List.map_nil, List.nil_append, List.mem_append] at hi
      rcases hi with hi | hi
      · obtain ⟨k, hk, rfl⟩ := List.mem_map.mp hi
        exact .keyLive hw hk hL
      · exact .openInput hw hpl.1 hi hL
    | broken => exact absurd hpl (by simp [Plain])

theorem path_live {w : World} {s : Nat} (hp : ∀ m op, w.lookup m = some op → Plain s op)
    {n m : Nat} (h : Path (sources w) n m) (hL : Live w s m) : Live w s n := by
  induction h with
  | one h => exact live_of_source hp h hL
  | cons h _ ih => exact live_of_source hp h (ih hL)

end Verif.Graph
