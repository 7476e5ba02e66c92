import Verif.Diagram.Types

/-
The buffers that an operation found when it was built are still there in the end.
-/
namespace Verif.Diagram

def BufsKept (a b : List (Ref × BufRef)) : Prop := ∀ r x, a.lookup r = some x → b.lookup r = some x

theorem BufsKept.refl (a : List (Ref × BufRef)) : BufsKept a a := fun _ _ h => h

theorem BufsKept.trans {a b c : List (Ref × BufRef)} (h : BufsKept a b) (g : BufsKept b c) :
    BufsKept a c := fun r x hx => g r x (h r x hx)

theorem BufsKept.star {a b : List (Ref × BufRef)} (h : BufsKept a b) {r r' : Ref}
    (hs : Star (RefersTo a) r r') : Star (RefersTo b) r r' := by
  induction hs with
  | refl => exact .refl
  | tail _ hr ih => exact .tail ih (h _ _ hr)

theorem acts_bufs {as : List Act} : ∀ {s s' : St}, acts s as = .ok s' →
    BufsKept s.c.bufs s'.c.bufs ∧
    (∀ r b, .buffer r b ∈ as → s'.c.bufs.lookup r = some b) ∧ s'.done = s.done ∧
    ∀ r b, s'.c.bufs.lookup r = some b → s.c.bufs.lookup r = some b ∨ .buffer r b ∈ as := by
  induction as with
  | nil => intro s s' h; cases h; exact ⟨.refl _, by simp, rfl, fun _ _ h => .inl h⟩
  | cons a rest ih =>
    intro s s' h
    simp only [acts] at h
    split at h
    · cases h
    · rename_i s1 h1
      obtain ⟨g1, g2, g3, g4⟩ := ih h
      have plain : s1.c.bufs = s.c.bufs → s1.done = s.done → (∀ r b, a ≠ .buffer r b) →
          BufsKept s.c.bufs s'.c.bufs ∧
          (∀ r b, .buffer r b ∈ a :: rest → s'.c.bufs.lookup r = some b) ∧ s'.done = s.done ∧
          ∀ r b, s'.c.bufs.lookup r = some b →
            s.c.bufs.lookup r = some b ∨ .buffer r b ∈ a :: rest := by
        intro e1 e2 e3
        rw [e1] at g1 g4
        refine ⟨g1, ?_, g3.trans e2, ?_⟩
        · intro k x hk
          rcases List.mem_cons.1 hk with hk | hk
          · exact absurd hk.symm (e3 k x)
          · exact g2 k x hk
        · intro k x hk
          rcases g4 k x hk with hk | hk
          · exact .inl hk
          · exact .inr (List.mem_cons_of_mem _ hk)
      cases a with
      | buffer r b =>
        simp only [act] at h1
        split at h1
        · cases h1
        · rename_i hl
          cases h1
          have here : ∀ k x, s.c.bufs.lookup k = some x →
              (s.c.bufs ++ [(r, b)]).lookup k = some x := by
            intro k x hk
            rw [lookup_append, hk]
            rfl
          refine ⟨fun k x hk => g1 k x (here k x hk), ?_, g3, ?_⟩
          · intro k x hk
            rcases List.mem_cons.1 hk with hk | hk
            · cases hk
              refine g1 _ _ ?_
              show (s.c.bufs ++ [(r, b)]).lookup r = some b
              rw [lookup_append, hl]
              simp
            · exact g2 k x hk
          · intro k x hk
            rcases g4 k x hk with hk | hk
            · have hk : (s.c.bufs ++ [(r, b)]).lookup k = some x := hk
              rw [lookup_append] at hk
              cases hs : s.c.bufs.lookup k with
              | some y =>
                rw [hs] at hk
                exact .inl hk
              | none =>
                rw [hs, Option.none_or] at hk
                have := mem_of_lookup hk
                simp only [List.mem_singleton, Prod.mk.injEq] at this
                obtain ⟨rfl, rfl⟩ := this
                exact .inr List.mem_cons_self
            · exact .inr (List.mem_cons_of_mem _ hk)
      | target r conn scope =>
        simp only [act] at h1
        split at h1
        · cases h1
        · cases h1
          exact plain rfl rfl (by simp)
      | out to ty scope => cases h1; exact plain rfl rfl (by simp)
      | hint r b => cases h1; exact plain rfl rfl (by simp)
      | child u => cases h1; exact plain rfl rfl (by simp)
      | newScope => cases h1; exact plain rfl rfl (by simp)

/-- What the operations that are done found, and the buffers they made, are there. -/
def Found (reg : Registry) (ts : List (Name × Template)) (onErr : Ref) (s : St) : Prop :=
  s.Ok ∧ ∀ u, u ∈ s.done → ∃ c as, build reg ts onErr u c = .ok (as, .finished) ∧
    BufsKept c.bufs s.c.bufs ∧ (∀ r b, .buffer r b ∈ as → s.c.bufs.lookup r = some b) ∧
    (∀ r ty sc, .out r ty sc ∈ as → ∃ o : Out, o.ty = ty ∧ (o, r) ∈ s.made) ∧
    ∀ r conn sc, .target r conn sc ∈ as →
      ∃ t, s.c.targets.lookup r = some t ∧ t.conn.core = conn.core

/-- Every buffer was made by an operation that is done. -/
def BufsMade (reg : Registry) (ts : List (Name × Template)) (onErr : Ref) (s : St) : Prop :=
  ∀ r b, s.c.bufs.lookup r = some b → ∃ u, u ∈ s.done ∧ ∃ c as,
    build reg ts onErr u c = .ok (as, .finished) ∧ .buffer r b ∈ as

theorem Found.kept {reg : Registry} {ts : List (Name × Template)} {onErr : Ref} {s s' : St}
    (h : Found reg ts onErr s) (hok : s'.Ok) (hk : BufsKept s.c.bufs s'.c.bufs)
    (hm : ∃ ms, s'.made = s.made ++ ms) (ht : Keeps s.c.targets s'.c.targets)
    (hd : s'.done = s.done) : Found reg ts onErr s' := by
  refine ⟨hok, ?_⟩
  intro u hu
  rw [hd] at hu
  obtain ⟨c, as, h1, h2, h3, h4, h5⟩ := h.2 u hu
  refine ⟨c, as, h1, h2.trans hk, fun r b hb => hk r b (h3 r b hb), ?_, ?_⟩
  · intro r ty sc hr
    obtain ⟨o, g1, g2⟩ := h4 r ty sc hr
    obtain ⟨ms, hm⟩ := hm
    refine ⟨o, g1, ?_⟩
    rw [hm]
    exact List.mem_append_left _ g2
  · intro r conn sc hr
    obtain ⟨t, g1, g2⟩ := h5 r conn sc hr
    obtain ⟨t', g3, _, g4⟩ := ht r t g1
    exact ⟨t', g3, g4.trans g2⟩

theorem buildAll_found {reg : Registry} {ts : List (Name × Template)} {onErr : Ref}
    {us : List UOp} : ∀ {s s' : St} {deferred deferred' : List UOp} {p p' : Bool},
      buildAll (build reg ts onErr) us s deferred p = .ok (s', deferred', p') →
      Found reg ts onErr s → Found reg ts onErr s' := by
  induction us with
  | nil => intro s s' deferred deferred' p p' h hs; cases h; exact hs
  | cons u rest ih =>
    intro s s' deferred deferred' p p' h hs
    simp only [buildAll] at h
    split at h
    · cases h
    · rename_i as status hb
      split at h
      · cases h
      · rename_i s1 h1
        obtain ⟨g1, g2, g3, _⟩ := acts_bufs h1
        have hok := (acts_ok h1 hs.1).1
        have hdid := acts_did h1
        obtain ⟨ms, g4, g5, _⟩ := hdid.outs
        have h2 := hs.kept hok g1 ⟨ms, g4⟩ hdid.keeps g3
        cases status with
        | finished =>
          refine ih h ⟨hok, ?_⟩
          intro v hv
          rcases List.mem_append.1 hv with hv | hv
          · exact h2.2 v hv
          · rw [List.mem_singleton.1 hv]
            refine ⟨s.c, as, hb, g1, g2, ?_, ?_⟩
            · intro r ty sc hr
              have : (r, ty, sc) ∈ ms.map born := by
                rw [g5]
                exact List.mem_filterMap.2 ⟨_, hr, rfl⟩
              obtain ⟨e, he, hb⟩ := List.mem_map.1 this
              simp only [born, Prod.mk.injEq] at hb
              obtain ⟨hb1, hb2, _⟩ := hb
              refine ⟨e.1, hb2, ?_⟩
              show (e.1, r) ∈ s1.made
              rw [g4, ← hb1]
              exact List.mem_append_right _ he
            · intro r conn sc hr
              obtain ⟨t, k1, _, k2⟩ := hdid.targets r conn sc hr
              exact ⟨t, k1, k2⟩
        | deferred b => exact ih h h2

theorem inner_bufs {reg : Registry} {onErr : Ref} {ord : Order} {busy : Bool} :
    ∀ {n : Nat} {s s' : St} {q q' : Bool} {left : Nat},
      inner reg onErr ord busy n s q = .ok (s', q', left) →
      s'.c.bufs = s.c.bufs ∧ s'.done = s.done := by
  intro n
  induction n with
  | zero =>
    intro s s' q q' left h
    simp only [inner] at h
    split at h <;> cases h
  | succ n ih =>
    intro s s' q q' left h
    simp only [inner] at h
    split at h
    · cases h
    · rename_i s1 more p h1
      have a : s1.c.bufs = s.c.bufs ∧ s1.done = s.done := by
        simp only [pass] at h1
        split at h1
        · cases h1
        · cases h1
          exact ⟨rfl, rfl⟩
      split at h
      · obtain ⟨b1, b2⟩ := ih h
        exact ⟨b1.trans a.1, b2.trans a.2⟩
      · cases h
        exact a

theorem outer_found {reg : Registry} {ts : List (Name × Template)} {onErr : Ref} {ord : Order}
    (hord : Drains ord) :
    ∀ {fuel left : Nat} {us : List UOp} {s s' : St},
      outer (build reg ts onErr) reg onErr ord fuel left us s = .ok s' →
      Found reg ts onErr s → Found reg ts onErr s' := by
  intro fuel
  induction fuel with
  | zero => intro left us s s' h; cases h
  | succ fuel ih =>
    intro left us s s' h hs
    simp only [outer] at h
    split at h
    · cases h
      exact hs
    · split at h
      · cases h
      · rename_i s1 us1 p1 h1
        split at h
        · cases h
        · rename_i s2 p2 left2 h2
          obtain ⟨b1, b2⟩ := inner_bufs h2
          have f1 := buildAll_found h1 hs
          have same := inner_same hord h2 f1.1
          split at h
          · split at h
            · cases h
            · refine ih h (f1.kept (inner_ok hord h2 f1.1).1 ?_ same.made same.keeps b2)
              rw [b1]
              exact .refl _
          · cases h

theorem create_found {reg : Registry} {io : Io} {ord : Order} {max : Nat} {d : Diagram} {s : St}
    (hord : Drains ord) (h : create reg io ord max d = .ok s) :
    Found reg d.templates d.errRef s := by
  simp only [create] at h
  split at h
  · cases h
  · split at h
    · cases h
    · rename_i s0 h0
      simp only [run] at h
      split at h
      · cases h
      · rename_i s1 h1
        split at h
        · cases h
          refine outer_found hord h1 ⟨(acts_ok h0 Led.empty).1, ?_⟩
          obtain ⟨_, _, h3, _⟩ := acts_bufs h0
          intro u hu
          rw [h3] at hu
          cases hu
        · cases h

theorem buildAll_made {reg : Registry} {ts : List (Name × Template)} {onErr : Ref}
    {us : List UOp} : ∀ {s s' : St} {deferred deferred' : List UOp} {p p' : Bool},
      buildAll (build reg ts onErr) us s deferred p = .ok (s', deferred', p') →
      BufsMade reg ts onErr s → BufsMade reg ts onErr s' := by
  induction us with
  | nil => intro s s' deferred deferred' p p' h hs; cases h; exact hs
  | cons u rest ih =>
    intro s s' deferred deferred' p p' h hs
    simp only [buildAll] at h
    split at h
    · cases h
    · rename_i as status hb
      split at h
      · cases h
      · rename_i s1 h1
        obtain ⟨_, _, g3, g4⟩ := acts_bufs h1
        cases status with
        | finished =>
          refine ih h ?_
          intro r b hr
          show ∃ v, v ∈ s1.done ++ [u] ∧ _
          rcases g4 r b hr with hr | hr
          · obtain ⟨v, k1, k2⟩ := hs r b hr
            exact ⟨v, List.mem_append_left _ (by rw [g3]; exact k1), k2⟩
          · exact ⟨u, by simp, _, _, hb, hr⟩
        | deferred q =>
          refine ih h ?_
          intro r b hr
          show ∃ v, v ∈ s1.done ∧ _
          rcases g4 r b hr with hr | hr
          · rw [g3]
            exact hs r b hr
          · obtain ⟨_, _, he⟩ := ((build_spec hb).1 q rfl).2 _ hr
            cases he

theorem create_made {reg : Registry} {io : Io} {ord : Order} {max : Nat} {d : Diagram} {s : St}
    (h : create reg io ord max d = .ok s) : BufsMade reg d.templates d.errRef s := by
  have key : ∀ {fuel left : Nat} {us : List UOp} {s s' : St},
      outer (build reg d.templates d.errRef) reg d.errRef ord fuel left us s = .ok s' →
      BufsMade reg d.templates d.errRef s → BufsMade reg d.templates d.errRef s' := by
    intro fuel
    induction fuel with
    | zero => intro left us s s' h; cases h
    | succ fuel ih =>
      intro left us s s' h hs
      simp only [outer] at h
      split at h
      · cases h
        exact hs
      · split at h
        · cases h
        · rename_i s1 us1 p1 h1
          split at h
          · cases h
          · rename_i s2 p2 left2 h2
            obtain ⟨b1, b2⟩ := inner_bufs h2
            split at h
            · split at h
              · cases h
              · refine ih h ?_
                intro r b hr
                rw [b1] at hr
                rw [b2]
                exact buildAll_made h1 hs r b hr
            · cases h
  simp only [create] at h
  split at h
  · cases h
  · split at h
    · cases h
    · rename_i s0 h0
      simp only [run] at h
      split at h
      · cases h
      · rename_i s1 h1
        split at h
        · cases h
          refine key h1 ?_
          obtain ⟨_, _, _, h4⟩ := acts_bufs h0
          intro r b hr
          rcases h4 r b hr with hr | hr
          · cases hr
          · simp [builtins] at hr
        · cases h

theorem bufferMap_ok {bufs : List (Ref × BufRef)} : ∀ {rs : List Ref} {tys : List Ty},
    bufferMap bufs rs = .ok tys → rs.length = tys.length ∧ ∀ p, p ∈ rs.zip tys →
      ∃ r, Star (RefersTo bufs) p.1 r ∧ bufs.lookup r = some (.value p.2) := by
  intro rs
  induction rs with
  | nil => intro tys h; cases h; simp
  | cons r rest ih =>
    intro tys h
    simp only [bufferMap] at h
    split at h
    · cases h
    · rename_i t ht
      split at h
      · cases h
      · rename_i ts hts
        cases h
        obtain ⟨g1, g2⟩ := ih hts
        refine ⟨by simp [g1], ?_⟩
        intro p hp
        rcases List.mem_cons.1 hp with rfl | hp
        · exact getBufferLoop_ok ht
        · exact g2 p hp

theorem layoutOk_allows : ∀ {hints : List Hint} {tys : List Ty}, layoutOk hints tys = true →
    ∀ p, p ∈ hints.zip tys → p.1.Allows p.2 := by
  intro hints
  induction hints with
  | nil => intro tys _ p hp; cases hp
  | cons x rest ih =>
    intro tys h p hp
    cases tys with
    | nil => cases hp
    | cons t ts =>
      cases x with
      | exact t' =>
        simp only [layoutOk, Bool.and_eq_true, decide_eq_true_eq] at h
        rcases List.mem_cons.1 hp with rfl | hp
        · exact h.1
        · exact ih h.2 p hp
      | fallback t' =>
        simp only [layoutOk] at h
        rcases List.mem_cons.1 hp with rfl | hp
        · trivial
        · exact ih h p hp

theorem layoutOk_length : ∀ {hints : List Hint} {tys : List Ty}, layoutOk hints tys = true →
    hints.length = tys.length
  | [], [], _ => rfl
  | [], _ :: _, h => by simp [layoutOk] at h
  | .exact _ :: _, [], h => by simp [layoutOk] at h
  | .fallback _ :: _, [], h => by simp [layoutOk] at h
  | .exact _ :: hs, _ :: ts, h => by
    simp only [layoutOk, Bool.and_eq_true] at h
    simp [layoutOk_length h.2]
  | .fallback _ :: hs, _ :: ts, h => by
    simp only [layoutOk] at h
    simp [layoutOk_length h]

theorem clones_of {reg : Registry} {tys : List Ty} : ∀ {is : List Nat},
    checkClones reg tys is = .ok () → ∀ i, i ∈ is → ∃ t, tys[i]? = some t ∧ reg.clone t = true
  | [], _, i, hi => by cases hi
  | k :: rest, h, i, hi => by
    simp only [checkClones] at h
    split at h
    · cases h
    · rename_i t ht
      split at h
      · rename_i hc
        rcases List.mem_cons.1 hi with rfl | hi
        · exact ⟨t, ht, hc⟩
        · exact clones_of h i hi
      · cases h

theorem are_of {s : St} {c : Cons} {ns : List Name} {buffers : List Next} {tys : List Ty}
    (hk : BufsKept c.bufs s.c.bufs)
    (hm : bufferMap c.bufs (buffers.map fun n => intoRef ns (Ref.ofNext n)) = .ok tys) :
    Are s ns buffers tys := by
  obtain ⟨h1, h2⟩ := bufferMap_ok hm
  rw [List.length_map] at h1
  refine ⟨h1, fun p hp => ?_⟩
  obtain ⟨r, h4, h5⟩ := h2 (intoRef ns (Ref.ofNext p.1), p.2) (by
    rw [List.zip_map_left]
    exact List.mem_map.2 ⟨p, hp, rfl⟩)
  exact ⟨r, hk.star h4, hk _ _ h5⟩

theorem holds_of {s : St} {c : Cons} {ns : List Name} {buffers : List Next} {hints : List Hint}
    {tys : List Ty} (hk : BufsKept c.bufs s.c.bufs) (hl : hints.length = buffers.length)
    (hm : bufferMap c.bufs (buffers.map fun n => intoRef ns (Ref.ofNext n)) = .ok tys)
    (ho : layoutOk hints tys = true) : Holds s ns buffers hints := by
  refine ⟨hl.symm, ?_⟩
  obtain ⟨h1, h2⟩ := bufferMap_ok hm
  have h3 := layoutOk_allows ho
  rw [List.length_map] at h1
  intro p hp
  obtain ⟨i, hi, hpi⟩ := List.getElem_of_mem hp
  rw [List.length_zip] at hi
  rw [List.getElem_zip] at hpi
  have i1 : i < buffers.length := by omega
  have i2 : i < hints.length := by omega
  have i3 : i < tys.length := by omega
  obtain ⟨r, h4, h5⟩ := h2 (intoRef ns (Ref.ofNext buffers[i]), tys[i]) (by
    refine List.mem_of_getElem (i := i) (h := by simp; omega) ?_
    simp)
  have h6 := h3 (hints[i], tys[i]) (by
    refine List.mem_of_getElem (i := i) (h := by simp; omega) ?_
    simp)
  subst hpi
  exact ⟨r, tys[i], hk.star h4, hk _ _ h5, h6⟩

end Verif.Diagram
