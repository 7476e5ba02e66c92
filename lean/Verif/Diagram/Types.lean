import Verif.Diagram.ScopeProps

/-
The types of the outputs and of the inputs they are connected to.
-/
namespace Verif.Diagram

/-- The type of the input of a connector. -/
def Conn.ty? : Conn → Option Ty
  | .slot ty _ _ => some ty
  | .hop _ _ _ (some (ty, _)) _ => some ty
  | _ => none

/-- The types that have a converter can be converted. -/
def ConvOk (reg : Registry) : Conn → Prop
  | .slot ty _ conv => ∀ x, x ∈ conv → Fits reg x ty
  | .hop _ _ _ (some (ty, conv)) _ => ∀ x, x ∈ conv → Fits reg x ty
  | _ => True

/-- What was connected fits. -/
def LinkTy (reg : Registry) (f : Ref → Option Target) (l : Link) : Prop :=
  ∃ t, f l.into = some t ∧
    ((∃ ty, t.conn.ty? = some ty ∧ Fits reg l.out.ty ty) ∨ ∃ sc cv, t.conn = .cancel sc cv)

def TyOk (reg : Registry) (f : Ref → Option Target) (links : List Link) : Prop :=
  (∀ r t, f r = some t → ConvOk reg t.conn) ∧ ∀ l, l ∈ links → LinkTy reg f l

/-- A later state of a connector. -/
def Later (c c' : Conn) : Prop :=
  (∀ ty, c.ty? = some ty → c'.ty? = some ty) ∧
  (∀ sc cv, c = .cancel sc cv → ∃ cv', c' = .cancel sc cv')

theorem Later.refl (c : Conn) : Later c c := ⟨fun _ h => h, fun _ cv h => ⟨cv, h⟩⟩

theorem LinkTy.later {reg : Registry} {f g : Ref → Option Target} {l : Link}
    (h : LinkTy reg f l)
    (hl : ∀ r t, f r = some t → ∃ t', g r = some t' ∧ Later t.conn t'.conn) :
    LinkTy reg g l := by
  obtain ⟨t, h1, h2⟩ := h
  obtain ⟨t', h3, h4, h5⟩ := hl _ _ h1
  refine ⟨t', h3, ?_⟩
  rcases h2 with ⟨ty, h6, h7⟩ | ⟨sc, cv, h6⟩
  · exact .inl ⟨ty, h4 ty h6, h7⟩
  · obtain ⟨cv', h7⟩ := h5 sc cv h6
    exact .inr ⟨sc, cv', h7⟩

theorem connectSlot_ty {reg : Registry} {onErr : Ref} {at_ : Nat} {ty : Ty} {scope : Nat}
    {conv conv' : List Ty} {o : Out} {extra : List (Ref × Ty × Nat)} {edges : List (Nat × Nat)}
    (h : connectSlot reg onErr at_ ty scope conv o = .ok (conv', extra, edges))
    (hc : ∀ x, x ∈ conv → Fits reg x ty) :
    (∀ x, x ∈ conv' → Fits reg x ty) ∧ Fits reg o.ty ty := by
  unfold connectSlot at h
  split at h
  · rename_i he
    cases h
    exact ⟨hc, .inl he⟩
  · split at h
    · rename_i hj
      split at h
      · rename_i hm
        cases h
        exact ⟨hc, hc _ hm⟩
      · split at h
        · rename_i hs
          cases h
          have hf : Fits reg o.ty ty := .inr (.inl ⟨hj, hs⟩)
          refine ⟨?_, hf⟩
          intro x hx
          rcases List.mem_cons.1 hx with rfl | hx
          · exact hf
          · exact hc x hx
        · cases h
    · split at h
      · rename_i hd
        have hf : Fits reg o.ty ty := .inr (.inr ⟨hd.2, hd.1⟩)
        split at h
        · cases h
          exact ⟨hc, hf⟩
        · cases h
          refine ⟨?_, hf⟩
          intro x hx
          rcases List.mem_cons.1 hx with rfl | hx
          · exact .inr (.inr ⟨rfl, hd.1⟩)
          · exact hc x hx
      · cases h

theorem connect_ty {reg : Registry} {onErr : Ref} {at_ : Nat} {conn conn' : Conn} {o : Out}
    {extra : List (Ref × Ty × Nat)} {edges : List (Nat × Nat)}
    (h : connect reg onErr at_ conn o = .ok (.link conn' extra edges)) (hc : ConvOk reg conn) :
    ConvOk reg conn' ∧ Later conn conn' ∧
      ((∃ ty, conn'.ty? = some ty ∧ Fits reg o.ty ty) ∨ ∃ sc cv, conn' = .cancel sc cv) := by
  cases conn with
  | slot ty scope conv =>
    simp only [connect] at h
    split at h
    · cases h
    · rename_i hj
      cases h
      obtain ⟨h1, h2⟩ := connectSlot_ty hj hc
      exact ⟨h1, ⟨fun _ h => h, by simp⟩, .inl ⟨ty, rfl, h2⟩⟩
  | dispose => cases h
  | cancel scope conv =>
    simp only [connect] at h
    have key : ∀ cv, ConvOk reg (.cancel scope cv) ∧ Later (.cancel scope conv) (.cancel scope cv) ∧
        ((∃ ty, (Conn.cancel scope cv).ty? = some ty ∧ Fits reg o.ty ty) ∨
          ∃ sc cv', Conn.cancel scope cv = .cancel sc cv') := by
      intro cv
      refine ⟨trivial, ⟨by simp [Conn.ty?], ?_⟩, .inr ⟨_, _, rfl⟩⟩
      intro sc cv' he
      cases he
      exact ⟨cv, rfl⟩
    split at h
    · cases h
      exact key _
    · split at h
      · cases h
        exact key _
      · split at h <;>
        · cases h
          exact key _
  | redirect to seen =>
    simp only [connect] at h
    split at h <;> cases h
  | hop i out to x mate =>
    cases x with
    | none =>
      cases h
      exact ⟨by simp [ConvOk], ⟨by simp [Conn.ty?], by simp⟩, .inl ⟨o.ty, rfl, .inl rfl⟩⟩
    | some p =>
      obtain ⟨ty, conv⟩ := p
      simp only [connect] at h
      split at h
      · cases h
      · rename_i hj
        cases h
        obtain ⟨h1, h2⟩ := connectSlot_ty hj hc
        exact ⟨h1, ⟨fun _ h => h, by simp⟩, .inl ⟨ty, rfl, h2⟩⟩

/-- The targets while the outputs of one target are being connected. -/
def withTarget (f : Ref → Option Target) (r : Ref) (t : Target) : Ref → Option Target :=
  fun k => if k = r then some t else f k

theorem withTarget_same {f : Ref → Option Target} {r : Ref} {t : Target} (h : f r = some t) :
    withTarget f r t = f := by
  funext k
  simp only [withTarget]
  split
  · rename_i hk
    rw [hk, h]
  · rfl

theorem setTarget_fun {targets : List (Ref × Target)} {r : Ref} {t0 t : Target}
    (h : targets.lookup r = some t0) :
    (fun k => (setTarget targets r t).lookup k) = withTarget (fun k => targets.lookup k) r t := by
  funext k
  simp only [withTarget]
  rw [lookup_setTarget]
  split
  · rename_i hk
    rw [hk, h]
    rfl
  · rfl

theorem TyOk.set {reg : Registry} {f : Ref → Option Target} {r : Ref} {t t' : Target}
    {links : List Link} (h : TyOk reg (withTarget f r t) links) (hc : ConvOk reg t'.conn)
    (hl : Later t.conn t'.conn) : TyOk reg (withTarget f r t') links := by
  refine ⟨?_, ?_⟩
  · intro k x hk
    simp only [withTarget] at hk
    split at hk
    · cases hk
      exact hc
    · rename_i hne
      exact h.1 k x (by simp [withTarget, hne, hk])
  · intro l hl'
    refine (h.2 l hl').later ?_
    intro k x hk
    simp only [withTarget] at hk ⊢
    split at hk
    · rename_i he
      cases hk
      exact ⟨t', by simp [he], hl⟩
    · rename_i he
      exact ⟨x, by simp [he, hk], .refl _⟩

theorem connectAll_ty {reg : Registry} {onErr r : Ref} {os : List Out} :
    ∀ {t : Target} {p p' : Pass}, connectAll reg onErr r t os p = .ok p' →
      (∃ t0, p.targets.lookup r = some t0) →
      TyOk reg (withTarget (fun k => p.targets.lookup k) r t) p.links →
      TyOk reg (fun k => p'.targets.lookup k) p'.links := by
  induction os with
  | nil =>
    intro t p p' h ht hs
    cases h
    obtain ⟨t0, ht⟩ := ht
    rw [← setTarget_fun ht] at hs
    exact hs
  | cons o rest ih =>
    intro t p p' h ht hs
    simp only [connectAll] at h
    have hc : ConvOk reg t.conn := hs.1 r t (by simp [withTarget])
    split at h
    · cases h
    · rename_i conn extra edges hj
      obtain ⟨g1, g2, g3⟩ := connect_ty hj hc
      obtain ⟨e1, _⟩ := addExtra_extra extra
        { p with progress := true, links := p.links ++ [⟨o, r, edges⟩] }
      have e2 := addExtra_links extra
        { p with progress := true, links := p.links ++ [⟨o, r, edges⟩] }
      refine ih h (by rw [e1]; exact ht) ?_
      rw [e1, e2]
      have h1 := hs.set (t' := { t with conn := conn }) g1 g2
      refine ⟨h1.1, ?_⟩
      intro l hl
      rcases List.mem_append.1 hl with hl | hl
      · exact h1.2 l hl
      · rw [List.mem_singleton.1 hl]
        exact ⟨{ t with conn := conn }, by simp [withTarget], g3⟩
    · have := ih h ht hs
      exact this
    · rename_i conn to hj
      have hcs : ConvOk reg conn ∧ Later t.conn conn := by
        rcases connect_cases hj with ⟨_, _, _, e, _⟩ | ⟨e, _⟩ | ⟨to', seen, hc, _, e⟩
        · cases e
        · cases e
        · cases e
          rw [hc]
          exact ⟨trivial, by simp [Conn.ty?], by simp⟩
      have := ih h ht (hs.set (t' := { t with conn := conn }) hcs.1 hcs.2)
      exact this

theorem drain_ty {reg : Registry} {onErr : Ref} {busy : Bool} {rem : List (Ref × List Out)} :
    ∀ {p p' : Pass}, drain reg onErr busy rem p = .ok p' →
      TyOk reg (fun k => p.targets.lookup k) p.links →
      TyOk reg (fun k => p'.targets.lookup k) p'.links := by
  induction rem with
  | nil => intro p p' h hs; cases h; exact hs
  | cons e rest ih =>
    obtain ⟨r, os⟩ := e
    intro p p' h hs
    simp only [drain] at h
    split at h
    · split at h
      · have := ih h hs
        exact this
      · cases h
    · rename_i t ht
      split at h
      · cases h
      · rename_i p1 h1
        refine ih h (connectAll_ty h1 ⟨t, ht⟩ ?_)
        rw [withTarget_same ht]
        exact hs

theorem inner_ty {reg : Registry} {onErr : Ref} {ord : Order} {busy : Bool} :
    ∀ {n : Nat} {s s' : St} {q q' : Bool} {left : Nat},
      inner reg onErr ord busy n s q = .ok (s', q', left) →
      TyOk reg (fun k => s.c.targets.lookup k) s.links →
      TyOk reg (fun k => s'.c.targets.lookup k) s'.links := by
  intro n
  induction n with
  | zero =>
    intro s s' q q' left h _
    simp only [inner] at h
    split at h <;> cases h
  | succ n ih =>
    intro s s' q q' left h hs
    simp only [inner] at h
    split at h
    · cases h
    · rename_i s1 more p h1
      have a : TyOk reg (fun k => s1.c.targets.lookup k) s1.links := by
        simp only [pass] at h1
        split at h1
        · cases h1
        · rename_i p hp
          cases h1
          exact drain_ty hp hs
      split at h
      · exact ih h a
      · cases h
        exact a

/-- The connectors that operations create have no converters. -/
def Act.plain : Act → Prop
  | .target _ (.slot _ _ conv) _ => conv = []
  | .target _ (.hop _ _ _ x _) _ => x = none
  | _ => True

theorem build_plain {reg : Registry} {ts : List (Name × Template)} {onErr : Ref} {u : UOp}
    {c : Cons} {as : List Act} {st : Status} (h : build reg ts onErr u c = .ok (as, st)) :
    ∀ a, a ∈ as → a.plain := by
  unfold build at h
  simp only at h
  repeat' split at h
  all_goals try cases h
  all_goals
    simp only [List.cons_append, List.mem_cons, List.mem_append, List.mem_map, List.not_mem_nil,
      or_false, List.mem_flatMap, redirectInput, redirectBuffer, redirectOutput,
      false_imp_iff, implies_true]
  all_goals intro a ha
  · rcases ha with rfl | rfl | ⟨_, _, rfl⟩ <;> trivial
  · rcases ha with rfl | ⟨_, _, rfl⟩ <;> trivial
  · rcases ha with rfl | ⟨_, _, rfl⟩ <;> trivial
  · rcases ha with rfl | rfl <;> trivial
  · obtain ⟨_, _, rfl⟩ := ha; trivial
  · rcases ha with ⟨_, _, rfl⟩ | rfl | rfl <;> trivial
  · obtain ⟨_, _, rfl⟩ := ha; trivial
  · rcases ha with ⟨_, _, rfl⟩ | rfl <;> trivial
  · obtain rfl := ha; trivial
  · rcases ha with rfl | rfl | rfl <;> trivial
  · obtain rfl := ha; trivial
  · rcases ha with (((⟨_, _, rfl⟩ | ⟨_, _, rfl⟩) | ⟨_, _, rfl | rfl⟩) | ⟨_, _, rfl⟩) | rfl <;>
      trivial
  · rcases ha with rfl | (⟨_, _, rfl⟩ | ⟨_, _, rfl⟩) | rfl | rfl <;> trivial

theorem acts_ty {reg : Registry} {as : List Act} : ∀ {s s' : St}, acts s as = .ok s' →
    (∀ a, a ∈ as → a.plain) → TyOk reg (fun k => s.c.targets.lookup k) s.links →
    TyOk reg (fun k => s'.c.targets.lookup k) s'.links := by
  induction as with
  | nil => intro s s' h _ hs; cases h; exact hs
  | cons a rest ih =>
    intro s s' h hi hs
    simp only [acts] at h
    split at h
    · cases h
    · rename_i s1 h1
      refine ih h (fun a ha => hi a (List.mem_cons_of_mem _ ha)) ?_
      have ha := hi a List.mem_cons_self
      cases a with
      | out to ty scope => cases h1; exact hs
      | target r conn scope =>
        simp only [act] at h1
        split at h1
        · cases h1
        · cases h1
          refine ⟨?_, ?_⟩
          · intro k t hk
            simp only [lookup_append] at hk
            cases hl : s.c.targets.lookup k with
            | some t' =>
              rw [hl] at hk
              cases hk
              exact hs.1 k t hl
            | none =>
              rw [hl] at hk
              simp only [Option.none_or] at hk
              have hm := mem_of_lookup hk
              simp only [List.mem_singleton, Prod.mk.injEq] at hm
              obtain ⟨_, rfl⟩ := hm
              show ConvOk reg conn
              cases conn with
              | slot ty sc cv =>
                have : cv = [] := ha
                subst this
                intro x hx
                cases hx
              | hop i o to x mate =>
                have : x = none := ha
                subst this
                trivial
              | _ => trivial
          · intro l hl
            refine (hs.2 l hl).later fun r' t hr' => ?_
            refine ⟨t, ?_, .refl _⟩
            simp only [lookup_append]
            rw [hr']
            rfl
      | buffer r b =>
        simp only [act] at h1
        split at h1
        · cases h1
        · cases h1; exact hs
      | hint r b => cases h1; exact hs
      | child u => cases h1; exact hs
      | newScope => cases h1; exact hs

theorem buildAll_ty {reg reg' : Registry} {ts : List (Name × Template)} {onErr : Ref}
    {us : List UOp} : ∀ {s s' : St} {deferred deferred' : List UOp} {p p' : Bool},
      buildAll (build reg ts onErr) us s deferred p = .ok (s', deferred', p') →
      TyOk reg' (fun k => s.c.targets.lookup k) s.links →
      TyOk reg' (fun k => s'.c.targets.lookup k) s'.links := by
  induction us with
  | nil => intro s s' deferred deferred' p p' h hs; cases h; exact hs
  | cons u rest ih =>
    intro s s' deferred deferred' p p' h hs
    simp only [buildAll] at h
    split at h
    · cases h
    · rename_i as status hb
      split at h
      · cases h
      · rename_i s1 h1
        have h2 := acts_ty h1 (build_plain hb) hs
        cases status with
        | finished => exact ih h h2
        | deferred b => exact ih h h2

theorem outer_ty {reg : Registry} {ts : List (Name × Template)} {onErr : Ref} {ord : Order} :
    ∀ {fuel left : Nat} {us : List UOp} {s s' : St},
      outer (build reg ts onErr) reg onErr ord fuel left us s = .ok s' →
      TyOk reg (fun k => s.c.targets.lookup k) s.links →
      TyOk reg (fun k => s'.c.targets.lookup k) s'.links := by
  intro fuel
  induction fuel with
  | zero => intro left us s s' h; cases h
  | succ fuel ih =>
    intro left us s s' h hs
    simp only [outer] at h
    split at h
    · cases h
      exact hs
    · split at h
      · cases h
      · rename_i s1 us1 p1 h1
        split at h
        · cases h
        · rename_i s2 p2 left2 h2
          split at h
          · split at h
            · cases h
            · exact ih h (inner_ty h2 (buildAll_ty h1 hs))
          · cases h

theorem create_ty {reg : Registry} {io : Io} {ord : Order} {max : Nat} {d : Diagram} {s : St}
    (h : create reg io ord max d = .ok s) :
    TyOk reg (fun k => s.c.targets.lookup k) s.links := by
  simp only [create] at h
  split at h
  · cases h
  · split at h
    · cases h
    · rename_i s0 h0
      simp only [run] at h
      split at h
      · cases h
      · rename_i s1 h1
        split at h
        · cases h
          refine outer_ty h1 (acts_ty h0 ?_ ⟨?_, ?_⟩)
          · intro a ha
            simp only [builtins, List.cons_append, List.mem_cons, List.mem_append,
              List.mem_map, List.not_mem_nil, or_false] at ha
            rcases ha with rfl | rfl | ⟨_, _, rfl⟩ | rfl | rfl <;> trivial
          · intro k t hk
            cases hk
          · intro l hl
            cases hl
        · cases h

/-- What leads to an input fits the type of that input. -/
theorem TyOk.slot {reg : Registry} {s : St} (h : TyOk reg (fun k => s.c.targets.lookup k) s.links)
    {r : Ref} {t : Target} (ht : s.c.targets.lookup r = some t) {ty : Ty} {sc : Nat}
    (hc : t.conn.core = .slot ty sc []) {l : Link} (hl : l ∈ s.links) (hi : l.into = r) :
    Fits reg l.out.ty ty := by
  obtain ⟨t', h1, h2⟩ := h.2 l hl
  rw [hi] at h1
  have h1 : s.c.targets.lookup r = some t' := h1
  rw [ht] at h1
  cases h1
  obtain ⟨cn, sc'⟩ := t
  cases cn <;> simp only [Conn.core, reduceCtorEq, Conn.slot.injEq] at hc
  obtain ⟨rfl, _⟩ := hc
  rcases h2 with ⟨ty', h2, h3⟩ | ⟨_, _, h2⟩
  · cases h2
    exact h3
  · cases h2

end Verif.Diagram
