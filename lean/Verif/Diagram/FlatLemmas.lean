import Verif.Diagram.FlatSpec
import Verif.Diagram.Types

set_option linter.unusedSectionVars false
set_option linter.unusedSimpArgs false

/-
The construction of diagrams whose operations declare their types: connecting outputs.
-/
namespace Verif.Diagram

variable {reg : Registry} {err : Ref}

/-- The connector takes outputs of this type. -/
def Conn.Takes (reg : Registry) : Conn → Ty → Prop
  | .slot t _ _, ty => Fits reg ty t
  | .dispose, _ => True
  | .cancel _ _, _ => True
  | _, _ => False

/-- The connector makes a converter that can fail for outputs of this type. -/
def Conn.Turns (reg : Registry) : Conn → Ty → Prop
  | .slot t _ _, ty => ty ≠ t
  | .cancel _ _, ty => ¬(reg.str ty = true ∨ ty = json) ∧ reg.ser ty = true
  | _, _ => False

/-- The types for which there is a converter. -/
def Conn.convs : Conn → List Ty
  | .slot _ _ conv => conv
  | .cancel _ conv => conv
  | _ => []

/-- Neither a redirection nor the border of a scope. -/
def Conn.Plain : Conn → Prop
  | .slot _ _ _ => True
  | .dispose => True
  | .cancel _ _ => True
  | _ => False

/-- Converters exist only for types that fit. -/
def Conn.Sound (reg : Registry) : Conn → Prop
  | .slot t _ conv => ∀ x, x ∈ conv → Fits reg x t
  | .dispose => True
  | .cancel _ _ => True
  | _ => False

theorem takes_core {c c' : Conn} (h : c'.core = c.core) (ty : Ty) :
    c'.Takes reg ty ↔ c.Takes reg ty := by
  cases c <;> cases c' <;> simp_all [Conn.core, Conn.Takes]

theorem turns_core {c c' : Conn} (h : c'.core = c.core) (ty : Ty) :
    c'.Turns reg ty ↔ c.Turns reg ty := by
  cases c <;> cases c' <;> simp_all [Conn.core, Conn.Turns]

theorem Conn.Sound.plain {c : Conn} (h : c.Sound reg) : c.Plain := by
  cases c <;> simp_all [Conn.Sound, Conn.Plain]

/-- What comes of connecting an output. -/
structure Step (reg : Registry) (err : Ref) (c : Conn) (ty : Ty) (c' : Conn)
    (extra : List (Ref × Ty × Nat)) : Prop where
  core : c'.core = c.core
  sound : c'.Sound reg
  grown : ∀ x, x ∈ c.convs → x ∈ c'.convs
  new : ∀ x, x ∈ c'.convs → x ∈ c.convs ∨ x = ty
  conv : c.Turns reg ty → ty ∈ c'.convs
  extra : (extra = [] ∧ (c.Turns reg ty → ty ∈ c.convs)) ∨
    (∃ sc, extra = [(err, reg.errTy, sc)] ∧ c.Turns reg ty ∧ ty ∉ c.convs)

theorem connectSlot_can {at_ : Nat} {t : Ty} {sc : Nat} {conv : List Ty} {o : Out}
    (h : Fits reg o.ty t) : ∃ x, connectSlot reg err at_ t sc conv o = .ok x := by
  unfold connectSlot
  split
  · exact ⟨_, rfl⟩
  · rename_i hne
    rcases h with h | ⟨h1, h2⟩ | ⟨h1, h2⟩
    · exact absurd h hne
    · rw [if_pos h1]
      split
      · exact ⟨_, rfl⟩
      · exact ⟨_, rfl⟩
    · have : t ≠ json := fun e => hne (h1.trans e.symm)
      rw [if_neg this, if_pos ⟨h2, h1⟩]
      split <;> exact ⟨_, rfl⟩

theorem connect_can {at_ : Nat} {c : Conn} {o : Out} (h : c.Takes reg o.ty) :
    ∃ j, connect reg err at_ c o = .ok j := by
  cases c with
  | slot t sc conv =>
    obtain ⟨⟨a, b, d⟩, hx⟩ := connectSlot_can (err := err) (at_ := at_) (sc := sc) (conv := conv)
      (show Fits reg o.ty t from h)
    simp only [connect, hx]
    exact ⟨_, rfl⟩
  | dispose => exact ⟨_, rfl⟩
  | cancel sc conv =>
    simp only [connect]
    split
    · exact ⟨_, rfl⟩
    · split
      · exact ⟨_, rfl⟩
      · split <;> exact ⟨_, rfl⟩
  | redirect => exact absurd h (by simp [Conn.Takes])
  | hop => exact absurd h (by simp [Conn.Takes])

theorem connect_step {at_ : Nat} {c : Conn} {o : Out} {j : Joined} (hs : c.Sound reg)
    (h : connect reg err at_ c o = .ok j) :
    c.Takes reg o.ty ∧ ((j = .dispose ∧ c = .dispose) ∨
      ∃ c' extra edges, j = .link c' extra edges ∧ Step reg err c o.ty c' extra) := by
  cases c with
  | slot t sc conv =>
    simp only [connect] at h
    split at h
    · cases h
    · rename_i conv' extra edges hc
      cases h
      have hf := connectSlot_ty hc hs
      refine ⟨hf.2, .inr ⟨_, _, _, rfl, ?_⟩⟩
      unfold connectSlot at hc
      split at hc
      · rename_i he
        cases hc
        exact ⟨rfl, hs, fun _ hx => hx, fun _ hx => .inl hx, fun ht => absurd he ht,
          .inl ⟨rfl, fun ht => absurd he ht⟩⟩
      · rename_i hne
        split at hc
        · split at hc
          · rename_i hm
            cases hc
            exact ⟨rfl, hs, fun _ hx => hx, fun _ hx => .inl hx, fun _ => hm,
              .inl ⟨rfl, fun _ => hm⟩⟩
          · rename_i hm
            split at hc
            · cases hc
              exact ⟨rfl, hf.1, fun _ hx => List.mem_cons_of_mem _ hx,
                fun _ hx => (List.mem_cons.1 hx).elim .inr .inl, fun _ => List.mem_cons_self,
                .inr ⟨_, rfl, hne, hm⟩⟩
            · cases hc
        · split at hc
          · rename_i hd
            split at hc
            · rename_i hm
              cases hc
              exact ⟨rfl, hs, fun _ hx => hx, fun _ hx => .inl hx,
                fun _ => by rw [hd.2]; exact hm, .inl ⟨rfl, fun _ => by rw [hd.2]; exact hm⟩⟩
            · rename_i hm
              cases hc
              refine ⟨rfl, hf.1, fun _ hx => List.mem_cons_of_mem _ hx,
                fun x hx => (List.mem_cons.1 hx).elim (fun e => .inr (e.trans hd.2.symm)) .inl,
                fun _ => by rw [hd.2]; exact List.mem_cons_self,
                .inr ⟨_, rfl, hne, by rw [hd.2]; exact hm⟩⟩
          · cases hc
  | dispose =>
    cases h
    exact ⟨trivial, .inl ⟨rfl, rfl⟩⟩
  | cancel sc conv =>
    refine ⟨trivial, .inr ?_⟩
    simp only [connect] at h
    split at h
    · rename_i hj
      cases h
      exact ⟨_, _, _, rfl, rfl, trivial, fun _ hx => hx, fun _ hx => .inl hx,
        fun ht => absurd hj ht.1, .inl ⟨rfl, fun ht => absurd hj ht.1⟩⟩
    · rename_i hj
      split at h
      · rename_i hm
        cases h
        exact ⟨_, _, _, rfl, rfl, trivial, fun _ hx => hx, fun _ hx => .inl hx,
          fun _ => hm, .inl ⟨rfl, fun _ => hm⟩⟩
      · rename_i hm
        split at h
        · rename_i hr
          cases h
          exact ⟨_, _, _, rfl, rfl, trivial, fun _ hx => List.mem_cons_of_mem _ hx,
            fun _ hx => (List.mem_cons.1 hx).elim .inr .inl, fun _ => List.mem_cons_self,
            .inr ⟨_, rfl, ⟨hj, hr⟩, hm⟩⟩
        · rename_i hr
          cases h
          exact ⟨_, _, _, rfl, rfl, trivial, fun _ hx => List.mem_cons_of_mem _ hx,
            fun _ hx => (List.mem_cons.1 hx).elim .inr .inl, fun _ => List.mem_cons_self,
            .inl ⟨rfl, fun ht => absurd ht.2 hr⟩⟩
  | redirect => exact hs.elim
  | hop => exact hs.elim

/-! ### Several outputs -/

/-- What the names lead to. -/
abbrev Look := Ref → Option Target

def LGood (reg : Registry) (L : Look) : Prop := ∀ r t, L r = some t → t.conn.Sound reg

/-- A converter that can fail was made. -/
def LTurned (reg : Registry) (L : Look) : Prop :=
  ∃ r t x, L r = some t ∧ x ∈ t.conn.convs ∧ t.conn.Turns reg x

structure LGrown (L L' : Look) : Prop where
  none : ∀ r, L r = none → L' r = none
  some : ∀ r t, L r = some t → ∃ t', L' r = some t' ∧ t'.conn.core = t.conn.core ∧
    ∀ x, x ∈ t.conn.convs → x ∈ t'.conn.convs

theorem LGrown.refl (L : Look) : LGrown L L := ⟨fun _ h => h, fun _ t h => ⟨t, h, rfl, fun _ hx => hx⟩⟩

theorem LGrown.trans {L L' L'' : Look} (h : LGrown L L') (g : LGrown L' L'') : LGrown L L'' where
  none r hr := g.none r (h.none r hr)
  some r t hr := by
    obtain ⟨t', h1, h2, h3⟩ := h.some r t hr
    obtain ⟨t'', g1, g2, g3⟩ := g.some r t' h1
    exact ⟨t'', g1, g2.trans h2, fun x hx => g3 x (h3 x hx)⟩

theorem LGrown.back {L L' : Look} (h : LGrown L L') {r : Ref} {t' : Target} (hr : L' r = .some t') :
    ∃ t, L r = .some t ∧ t'.conn.core = t.conn.core ∧
      ∀ x, x ∈ t.conn.convs → x ∈ t'.conn.convs := by
  cases hl : L r with
  | none => rw [h.none r hl] at hr; cases hr
  | some t =>
    obtain ⟨t2, h1, h2, h3⟩ := h.some r t hl
    rw [hr] at h1
    cases h1
    exact ⟨t, rfl, h2, h3⟩

/-- The name leads to something that takes outputs of this type. -/
def LTakes (reg : Registry) (L : Look) (r : Ref) (ty : Ty) : Prop :=
  ∃ t, L r = some t ∧ t.conn.Takes reg ty

def LTurns (reg : Registry) (L : Look) (r : Ref) (ty : Ty) : Prop :=
  ∃ t, L r = some t ∧ t.conn.Turns reg ty

theorem LGrown.takes {L L' : Look} (h : LGrown L L') {r : Ref} {ty : Ty} :
    LTakes reg L' r ty ↔ LTakes reg L r ty := by
  constructor
  · rintro ⟨t', h1, h2⟩
    obtain ⟨t, g1, g2, _⟩ := h.back h1
    exact ⟨t, g1, (takes_core g2 ty).1 h2⟩
  · rintro ⟨t, h1, h2⟩
    obtain ⟨t', g1, g2, _⟩ := h.some r t h1
    exact ⟨t', g1, (takes_core g2 ty).2 h2⟩

theorem LGrown.turns {L L' : Look} (h : LGrown L L') {r : Ref} {ty : Ty} :
    LTurns reg L' r ty ↔ LTurns reg L r ty := by
  constructor
  · rintro ⟨t', h1, h2⟩
    obtain ⟨t, g1, g2, _⟩ := h.back h1
    exact ⟨t, g1, (turns_core g2 ty).1 h2⟩
  · rintro ⟨t, h1, h2⟩
    obtain ⟨t', g1, g2, _⟩ := h.some r t h1
    exact ⟨t', g1, (turns_core g2 ty).2 h2⟩

/-- Connecting the outputs `items` leads from the targets `L` to the targets `L'`, and from the
waiting outputs `N` to the waiting outputs `N'`. -/
structure LDid (reg : Registry) (err : Ref) (L : Look) (N : Out × Ref → Prop)
    (items : List (Out × Ref)) (L' : Look) (N' : Out × Ref → Prop) : Prop where
  good : LGood reg L'
  takes : ∀ e, e ∈ items → LTakes reg L e.2 e.1.ty
  grown : LGrown L L'
  keep : ∀ e, N e → N' e
  new : ∀ e, N' e → N e ∨ (e.2 = err ∧ e.1.ty = reg.errTy)
  conv : ∀ e, e ∈ items → ∀ t, L' e.2 = some t → t.conn.Turns reg e.1.ty →
    e.1.ty ∈ t.conn.convs
  why : (∀ e, N' e → N e) ∨ ∃ e, e ∈ items ∧ ∃ t, L e.2 = some t ∧ t.conn.Turns reg e.1.ty ∧
    e.1.ty ∉ t.conn.convs
  owe : LTurned reg L' → LTurned reg L ∨ ∃ o, N' (o, err) ∧ o.ty = reg.errTy

theorem LDid.nil {L : Look} {N : Out × Ref → Prop} (h : LGood reg L) : LDid reg err L N [] L N where
  good := h
  takes e he := by cases he
  grown := .refl L
  keep _ h := h
  new _ h := .inl h
  conv e he := by cases he
  why := .inl fun _ h => h
  owe h := .inl h

theorem LDid.trans {L L' L'' : Look} {N N' N'' : Out × Ref → Prop} {a b : List (Out × Ref)}
    (h : LDid reg err L N a L' N') (g : LDid reg err L' N' b L'' N'') :
    LDid reg err L N (a ++ b) L'' N'' where
  good := g.good
  takes e he := by
    rcases List.mem_append.1 he with he | he
    · exact h.takes e he
    · exact h.grown.takes.1 (g.takes e he)
  grown := h.grown.trans g.grown
  keep e he := g.keep e (h.keep e he)
  new e he := by
    rcases g.new e he with he | he
    · exact h.new e he
    · exact .inr he
  conv e he t ht hT := by
    rcases List.mem_append.1 he with he | he
    · obtain ⟨t', h1, h2, h3⟩ := g.grown.back ht
      exact h3 _ (h.conv e he t' h1 ((turns_core h2 _).1 hT))
    · exact g.conv e he t ht hT
  why := by
    rcases h.why with hw | ⟨e, he, hw⟩
    · rcases g.why with gw | ⟨e, he, t, g1, g2, g3⟩
      · exact .inl fun e he => hw e (gw e he)
      · obtain ⟨t', h1, h2, h3⟩ := h.grown.back g1
        exact .inr ⟨e, List.mem_append_right _ he, t', h1, (turns_core h2 _).1 g2,
          fun hx => g3 (h3 _ hx)⟩
    · exact .inr ⟨e, List.mem_append_left _ he, hw⟩
  owe ht := by
    rcases g.owe ht with ht | ht
    · rcases h.owe ht with ht | ⟨o, h1, h2⟩
      · exact .inl ht
      · exact .inr ⟨o, g.keep _ h1, h2⟩
    · exact .inr ht

theorem LDid.congr {L L2 L' L2' : Look} {N N' : Out × Ref → Prop} {a : List (Out × Ref)}
    (h : LDid reg err L N a L' N') (e : ∀ r, L2 r = L r) (e' : ∀ r, L2' r = L' r) :
    LDid reg err L2 N a L2' N' := by
  have h1 : L2 = L := funext e
  have h2 : L2' = L' := funext e'
  rw [h1, h2]
  exact h

/-- One entry is replaced. -/
def Look.set (L : Look) (r : Ref) (t : Target) : Look := fun k => if k = r then some t else L k

/-- One output. -/
theorem LDid.one {L : Look} {N N' : Out × Ref → Prop} {r : Ref} {t : Target} {o : Out}
    {c' : Conn} {extra : List (Ref × Ty × Nat)} (hg : LGood reg L) (hr : L r = some t)
    (ht : t.conn.Takes reg o.ty) (hs : Step reg err t.conn o.ty c' extra)
    (hN : (extra = [] ∧ N' = N) ∨
      ∃ sc x, extra = [(err, reg.errTy, sc)] ∧ x.ty = reg.errTy ∧
        ∀ e, N' e ↔ N e ∨ e = (x, err)) :
    LDid reg err L N [(o, r)] (L.set r { t with conn := c' }) N' where
  good k t' hk := by
    unfold Look.set at hk
    split at hk
    · cases hk; exact hs.sound
    · exact hg k t' hk
  takes e he := by
    rw [List.mem_singleton] at he
    subst he
    exact ⟨t, hr, ht⟩
  grown := by
    constructor
    · intro k hk
      have : k ≠ r := by rintro rfl; rw [hr] at hk; cases hk
      simp [Look.set, this, hk]
    · intro k x hk
      by_cases hkr : k = r
      · subst hkr
        rw [hr] at hk
        cases hk
        exact ⟨{ t with conn := c' }, by simp [Look.set], hs.core, hs.grown⟩
      · exact ⟨x, by simp [Look.set, hkr, hk], rfl, fun _ hx => hx⟩
  keep e he := by
    rcases hN with ⟨_, rfl⟩ | ⟨_, _, _, _, h⟩
    · exact he
    · exact (h e).2 (.inl he)
  new e he := by
    rcases hN with ⟨_, rfl⟩ | ⟨_, x, _, hx, h⟩
    · exact .inl he
    · rcases (h e).1 he with he | rfl
      · exact .inl he
      · exact .inr ⟨rfl, hx⟩
  conv e he t' ht' hT := by
    rw [List.mem_singleton] at he
    subst he
    simp only [Look.set, if_true, Option.some.injEq] at ht'
    subst ht'
    exact hs.conv ((turns_core hs.core _).1 hT)
  why := by
    rcases hN with ⟨_, rfl⟩ | ⟨_, x, hx, _, h⟩
    · exact .inl fun _ he => he
    · rcases hs.extra with ⟨h1, _⟩ | ⟨_, _, h2, h3⟩
      · rw [hx] at h1; cases h1
      · exact .inr ⟨_, List.mem_singleton.2 rfl, t, hr, h2, h3⟩
  owe hT := by
    obtain ⟨k, t', x, h1, h2, h3⟩ := hT
    by_cases hk : k = r
    · subst hk
      simp only [Look.set, if_true, Option.some.injEq] at h1
      subst h1
      have h3' := (turns_core hs.core x).1 h3
      rcases hs.new x h2 with h4 | h4
      · exact .inl ⟨k, t, x, hr, h4, h3'⟩
      · subst h4
        rcases hs.extra with ⟨_, h5⟩ | ⟨sc, h5, _, _⟩
        · exact .inl ⟨k, t, o.ty, hr, h5 h3', h3'⟩
        · rcases hN with ⟨h6, _⟩ | ⟨_, y, _, hy, h6⟩
          · rw [h5] at h6; cases h6
          · exact .inr ⟨y, (h6 _).2 (.inr rfl), hy⟩
    · simp only [Look.set, hk, if_false] at h1
      exact .inl ⟨k, t', x, h1, h2, h3⟩

/-! ### The loops over the outputs -/

theorem lookup_set {T : List (Ref × Target)} {r : Ref} {t : Target} (h : (T.lookup r).isSome) :
    ∀ k, (setTarget T r t).lookup k = Look.set (fun k => T.lookup k) r t k := by
  intro k
  rw [lookup_setTarget]
  unfold Look.set
  split
  · rename_i hk
    subst hk
    cases hx : T.lookup k with
    | none => rw [hx] at h; cases h
    | some y => rfl
  · rfl

/-- No entry of the map is empty. -/
def Filled (m : List (Ref × List Out)) : Prop := ∀ e, e ∈ m → e.2 ≠ []

def AllPlain (T : List (Ref × Target)) : Prop := ∀ e, e ∈ T → e.2.conn.Plain

theorem AllPlain.set {T : List (Ref × Target)} {r : Ref} {t : Target} (h : AllPlain T)
    (ht : t.conn.Plain) : AllPlain (setTarget T r t) := by
  intro e he
  unfold setTarget at he
  obtain ⟨x, hx, rfl⟩ := List.mem_map.1 he
  split
  · exact ht
  · exact h x hx

theorem mem_flat_push {m : List (Ref × List Out)} {r : Ref} {o : Out} (e : Out × Ref) :
    e ∈ flat (pushOut m r o) ↔ e ∈ flat m ∨ e = (o, r) := by
  rw [(flat_pushOut m r o).mem_iff, List.mem_cons]
  exact or_comm

/-- What stays the same or only grows during a pass. -/
structure Kept (p p' : Pass) : Prop where
  deferred : p'.deferred = p.deferred
  filled : Filled p.next → Filled p'.next
  plain : AllPlain p.targets → AllPlain p'.targets
  progress : p.progress = true → p'.progress = true

theorem Kept.trans {p p' p'' : Pass} (h : Kept p p') (g : Kept p' p'') : Kept p p'' :=
  ⟨g.deferred.trans h.deferred, fun x => g.filled (h.filled x), fun x => g.plain (h.plain x),
    fun x => g.progress (h.progress x)⟩

theorem connectAll_flat {r : Ref} {os : List Out} : ∀ {t : Target} {p p' : Pass},
    (p.targets.lookup r).isSome → LGood reg (Look.set (fun k => p.targets.lookup k) r t) →
    connectAll reg err r t os p = .ok p' →
    LDid reg err (Look.set (fun k => p.targets.lookup k) r t) (fun e => e ∈ flat p.next)
      (os.map fun o => (o, r)) (fun k => p'.targets.lookup k) (fun e => e ∈ flat p'.next) ∧
    Kept p p' ∧ (os ≠ [] → p'.progress = true) := by
  induction os with
  | nil =>
    intro t p p' hr hg h
    cases h
    refine ⟨(LDid.nil hg).congr (fun _ => rfl) (lookup_set hr), ⟨rfl, fun h => h, fun h => ?_,
      fun h => h⟩, fun h => absurd rfl h⟩
    exact h.set (hg r t (by simp [Look.set])).plain
  | cons o rest ih =>
    intro t p p' hr hg h
    have hl : Look.set (fun k => p.targets.lookup k) r t r = some t := by simp [Look.set]
    simp only [connectAll] at h
    split at h
    · cases h
    · rename_i c' extra edges hc
      obtain ⟨hT, hj⟩ := connect_step (hg r t hl) hc
      rcases hj with ⟨hj, _⟩ | ⟨c2, extra2, edges2, hj, hs⟩
      · cases hj
      cases hj
      have hset : ∀ k, Look.set (Look.set (fun k => p.targets.lookup k) r t) r
          { t with conn := c' } k = Look.set (fun k => p.targets.lookup k) r
          { t with conn := c' } k := by
        intro k
        unfold Look.set
        split <;> rfl
      rcases hs.extra with ⟨rfl, _⟩ | ⟨sc, rfl, _, _⟩
      · have one := LDid.one (N := fun e => e ∈ flat p.next) hg hl hT hs (.inl ⟨rfl, rfl⟩)
        have hg' : LGood reg (Look.set (fun k => p.targets.lookup k) r
            { t with conn := c' }) := by
          intro k x hk; exact one.good k x (by rw [hset k]; exact hk)
        simp only [addExtra] at h
        obtain ⟨h1, h2, h3⟩ := ih (p := { p with
          progress := true
          links := p.links ++ [⟨o, r, edges⟩] }) hr hg' h
        refine ⟨(one.congr (fun _ => rfl) (fun k => (hset k).symm)).trans h1, ?_, fun _ =>
          h2.progress rfl⟩
        exact ⟨h2.deferred, h2.filled, h2.plain, fun _ => h2.progress rfl⟩
      · have one := LDid.one (N := fun e => e ∈ flat p.next)
          (N' := fun e => e ∈ flat (pushOut p.next err ⟨p.fresh, reg.errTy, sc⟩)) hg hl hT hs
          (.inr ⟨sc, ⟨p.fresh, reg.errTy, sc⟩, rfl, rfl, mem_flat_push⟩)
        have hg' : LGood reg (Look.set (fun k => p.targets.lookup k) r
            { t with conn := c' }) := by
          intro k x hk; exact one.good k x (by rw [hset k]; exact hk)
        simp only [addExtra] at h
        obtain ⟨h1, h2, h3⟩ := ih (p := { p with
          progress := true
          links := p.links ++ [⟨o, r, edges⟩]
          next := pushOut p.next err ⟨p.fresh, reg.errTy, sc⟩
          fresh := p.fresh + 1
          made := p.made ++ [(⟨p.fresh, reg.errTy, sc⟩, err)] }) hr hg' h
        refine ⟨(one.congr (fun _ => rfl) (fun k => (hset k).symm)).trans h1, ?_, fun _ =>
          h2.progress rfl⟩
        exact ⟨h2.deferred, fun hf => h2.filled (pushOut_ne hf), h2.plain, fun _ =>
          h2.progress rfl⟩
    · rename_i hc
      obtain ⟨hT, hj⟩ := connect_step (hg r t hl) hc
      have hd : t.conn = .dispose := by
        rcases hj with ⟨_, hd⟩ | ⟨c2, extra2, edges2, hj, hs⟩
        · exact hd
        · cases hj
      obtain ⟨h1, h2, h3⟩ := ih (p := { p with
          progress := true
          disposed := p.disposed ++ [(o, r)] }) hr hg h
      have hs : Step reg err t.conn o.ty t.conn [] := by
        have hS := hg r t hl
        rw [hd] at hS ⊢
        exact ⟨rfl, hS, fun _ hx => hx, fun _ hx => .inl hx, fun hx => hx.elim,
          .inl ⟨rfl, fun hx => hx.elim⟩⟩
      have one := LDid.one (N := fun e => e ∈ flat p.next) hg hl hT hs (.inl ⟨rfl, rfl⟩)
      have hset : ∀ k, Look.set (Look.set (fun k => p.targets.lookup k) r t) r
          { t with conn := t.conn } k = Look.set (fun k => p.targets.lookup k) r t k := by
        intro k
        unfold Look.set
        split <;> rfl
      refine ⟨(one.congr (fun _ => rfl) (fun k => (hset k).symm)).trans h1, ?_, fun _ =>
        h2.progress rfl⟩
      exact ⟨h2.deferred, h2.filled, h2.plain, fun _ => h2.progress rfl⟩
    · rename_i c' to hc
      obtain ⟨hT, hj⟩ := connect_step (hg r t hl) hc
      rcases hj with ⟨hj, _⟩ | ⟨c2, extra2, edges2, hj, hs⟩
      · cases hj
      · cases hj

theorem connectAll_can {r : Ref} {os : List Out} : ∀ {t : Target} {p : Pass},
    t.conn.Sound reg → (∀ o, o ∈ os → t.conn.Takes reg o.ty) →
    ∃ p', connectAll reg err r t os p = .ok p' := by
  induction os with
  | nil => intro t p _ _; exact ⟨_, rfl⟩
  | cons o rest ih =>
    intro t p hs h
    obtain ⟨j, hj⟩ := connect_can (err := err) (at_ := t.scope) (h o List.mem_cons_self)
    have hrest : ∀ x, x ∈ rest → t.conn.Takes reg x.ty :=
      fun x hx => h x (List.mem_cons_of_mem _ hx)
    simp only [connectAll, hj]
    rcases (connect_step hs hj).2 with ⟨rfl, _⟩ | ⟨c', extra, edges, rfl, hstep⟩
    · exact ih hs hrest
    · exact ih hstep.sound fun x hx => (takes_core hstep.core _).2 (hrest x hx)

theorem set_same {T : List (Ref × Target)} {r : Ref} {t : Target} (h : T.lookup r = some t) :
    ∀ k, Look.set (fun k => T.lookup k) r t k = T.lookup k := by
  intro k
  unfold Look.set
  split
  · rename_i hk; subst hk; exact h.symm
  · rfl

theorem flat_cons (r : Ref) (os : List Out) (l : List (Ref × List Out)) :
    flat ((r, os) :: l) = (os.map fun o => (o, r)) ++ flat l := by
  simp [flat]

theorem drain_flat {l : List (Ref × List Out)} : ∀ {p p' : Pass},
    LGood reg (fun k => p.targets.lookup k) → drain reg err false l p = .ok p' →
    LDid reg err (fun k => p.targets.lookup k) (fun e => e ∈ flat p.next) (flat l)
      (fun k => p'.targets.lookup k) (fun e => e ∈ flat p'.next) ∧
    Kept p p' ∧ (flat l ≠ [] → p'.progress = true) := by
  induction l with
  | nil =>
    intro p p' hg h
    cases h
    exact ⟨.nil hg, ⟨rfl, fun h => h, fun h => h, fun h => h⟩, fun h => absurd rfl h⟩
  | cons e rest ih =>
    obtain ⟨r, os⟩ := e
    intro p p' hg h
    simp only [drain] at h
    split at h
    · simp at h
    · rename_i t ht
      split at h
      · cases h
      · rename_i p1 h1
        have hg1 : LGood reg (Look.set (fun k => p.targets.lookup k) r t) := by
          intro k x hk
          rw [set_same ht k] at hk
          exact hg k x hk
        obtain ⟨a1, a2, a3⟩ := connectAll_flat (by rw [ht]; rfl) hg1 h1
        obtain ⟨b1, b2, b3⟩ := ih a1.good h
        rw [flat_cons]
        refine ⟨(a1.congr (fun k => (set_same ht k).symm) (fun _ => rfl)).trans b1,
          a2.trans b2, fun hne => ?_⟩
        cases os with
        | nil => exact b3 (by simpa using hne)
        | cons o os => exact b2.progress (a3 (by simp))

theorem drain_can {l : List (Ref × List Out)} : ∀ {p : Pass},
    LGood reg (fun k => p.targets.lookup k) → Filled l →
    (∀ e, e ∈ flat l → LTakes reg (fun k => p.targets.lookup k) e.2 e.1.ty) →
    ∃ p', drain reg err false l p = .ok p' := by
  induction l with
  | nil => intro p _ _ _; exact ⟨_, rfl⟩
  | cons e rest ih =>
    obtain ⟨r, os⟩ := e
    intro p hg hf h
    rw [flat_cons] at h
    have hos : os ≠ [] := hf _ List.mem_cons_self
    obtain ⟨o, os', rfl⟩ : ∃ o os', os = o :: os' := by
      cases os with
      | nil => exact absurd rfl hos
      | cons o os' => exact ⟨o, os', rfl⟩
    obtain ⟨t, ht, _⟩ := h (o, r) (by simp)
    have ht : p.targets.lookup r = some t := ht
    have htakes : ∀ x, x ∈ o :: os' → t.conn.Takes reg x.ty := by
      intro x hx
      obtain ⟨t', h1, h2⟩ := h (x, r) (List.mem_append_left _ (List.mem_map.2 ⟨x, hx, rfl⟩))
      have h1 : p.targets.lookup r = some t' := h1
      rw [ht] at h1
      cases h1
      exact h2
    obtain ⟨p1, hp1⟩ := connectAll_can (err := err) (r := r) (p := p) (hg r t ht) htakes
    simp only [drain, ht, hp1]
    have hg1 : LGood reg (Look.set (fun k => p.targets.lookup k) r t) := by
      intro k x hk
      rw [set_same ht k] at hk
      exact hg k x hk
    obtain ⟨a1, a2, a3⟩ := connectAll_flat (by rw [ht]; rfl) hg1 hp1
    have a1 := a1.congr (fun k => (set_same ht k).symm) (fun _ => rfl)
    refine ih a1.good (fun e he => hf e (List.mem_cons_of_mem _ he)) fun e he => ?_
    exact a1.grown.takes.2 (h e (List.mem_append_right _ he))

/-! ### Passes -/

/-- What the names lead to in a state. -/
abbrev St.look (s : St) : Look := fun k => s.c.targets.lookup k

theorem extend_nil {α : Type} (m : List (Ref × α)) : extend m [] = m := by
  simp [extend]

/-- A state whose targets are slots. -/
structure St.Fine (reg : Registry) (s : St) : Prop where
  good : LGood reg s.look
  filled : Filled s.c.outs
  plain : AllPlain s.c.targets

theorem pass_flat {ord : List (Ref × List Out) → List (Ref × List Out)}
    (hord : ∀ l, (ord l).Perm l) {s s' : St} {more progress : Bool} (hs : s.Fine reg)
    (h : pass reg err ord false s = .ok (s', more, progress)) :
    LDid reg err s.look (fun _ => False) (flat s.c.outs) s'.look
      (fun e => e ∈ flat s'.c.outs) ∧
    s'.Fine reg ∧ more = !s'.c.outs.isEmpty ∧ (flat s.c.outs ≠ [] → progress = true) := by
  unfold pass at h
  split at h
  · cases h
  · rename_i p hp
    cases h
    obtain ⟨h1, h2, h3⟩ := drain_flat hs.good hp
    have hperm := flat_perm (hord s.c.outs)
    have hdef : p.deferred = [] := h2.deferred
    simp only [hdef, extend_nil]
    refine ⟨?_, ⟨h1.good, h2.filled (fun e he => by cases he), h2.plain hs.plain⟩, trivial,
      fun hne => h3 fun e => hne ?_⟩
    · refine ⟨h1.good, fun e he => h1.takes e (hperm.mem_iff.2 he), h1.grown,
        fun e he => he.elim, fun e he => ?_, fun e he => h1.conv e (hperm.mem_iff.2 he), ?_,
        h1.owe⟩
      · rcases h1.new e he with h | h
        · simp [flat] at h
        · exact .inr h
      · rcases h1.why with h | ⟨e, he, h⟩
        · left
          intro e he
          have := h e he
          simp [flat] at this
        · exact .inr ⟨e, hperm.mem_iff.1 he, h⟩
    · rw [e] at hperm
      exact hperm.symm.eq_nil

theorem pass_can {ord : List (Ref × List Out) → List (Ref × List Out)}
    (hord : ∀ l, (ord l).Perm l) {s : St} (hs : s.Fine reg)
    (h : ∀ e, e ∈ flat s.c.outs → LTakes reg s.look e.2 e.1.ty) :
    ∃ s' more progress, pass reg err ord false s = .ok (s', more, progress) := by
  obtain ⟨p', hp⟩ := drain_can (err := err) (l := ord s.c.outs)
    (p := { next := [], deferred := [], targets := s.c.targets, fresh := s.c.fresh, progress := false,
            made := s.made, links := s.links, disposed := s.disposed }) hs.good
    (fun e he => hs.filled e ((hord _).mem_iff.1 he))
    (fun e he => h e ((flat_perm (hord _)).mem_iff.1 he))
  unfold pass
  rw [hp]
  exact ⟨_, _, _, rfl⟩

theorem flat_nil_iff {m : List (Ref × List Out)} (h : Filled m) : flat m = [] ↔ m = [] := by
  constructor
  · intro hf
    cases m with
    | nil => rfl
    | cons e rest =>
      obtain ⟨r, os⟩ := e
      have := h _ (List.mem_cons_self (a := (r, os)) (l := rest))
      cases os with
      | nil => exact absurd rfl this
      | cons o os => simp [flat] at hf
  · rintro rfl; rfl

/-! ### The inner loop -/

/-- What a successful inner loop says about the outputs. -/
theorem inner_needs {ord : Order} (hord : Drains ord) : ∀ {n : Nat} {s s' : St}
    {progress progress' : Bool} {left : Nat}, s.Fine reg →
    (LTurned reg s.look → LTakes reg s.look err reg.errTy ∨
      ∃ o, (o, err) ∈ flat s.c.outs ∧ o.ty = reg.errTy) →
    inner reg err ord false n s progress = .ok (s', progress', left) →
    (∀ e, e ∈ flat s.c.outs → LTakes reg s.look e.2 e.1.ty) ∧
    LGrown s.look s'.look ∧ s'.Fine reg ∧ s'.c.outs = [] ∧
    (LTurned reg s'.look → LTakes reg s.look err reg.errTy) ∧
    (∀ e, e ∈ flat s.c.outs → ∀ t, s'.look e.2 = some t → t.conn.Turns reg e.1.ty →
      e.1.ty ∈ t.conn.convs) := by
  intro n
  induction n with
  | zero =>
    intro s s' progress progress' left hs _ h
    simp only [inner] at h
    split at h <;> cases h
  | succ n ih =>
    intro s s' progress progress' left hs hinv h
    simp only [inner] at h
    split at h
    · cases h
    · rename_i s1 more pr hp
      obtain ⟨a1, a2, a3, a4⟩ := pass_flat (hord (n + 1)) hs hp
      have hinv1 : LTurned reg s1.look → LTakes reg s1.look err reg.errTy ∨
          ∃ o, (o, err) ∈ flat s1.c.outs ∧ o.ty = reg.errTy := by
        intro ht
        rcases a1.owe ht with ht | ht
        · rcases hinv ht with h | ⟨o, h1, h2⟩
          · exact .inl (a1.grown.takes.2 h)
          · left
            have := a1.takes _ h1
            rw [h2] at this
            exact a1.grown.takes.2 this
        · exact .inr ht
      cases more with
      | true =>
        simp only [if_true] at h
        obtain ⟨b1, b2, b3, b4, b5, b6⟩ := ih a2 hinv1 h
        refine ⟨a1.takes, a1.grown.trans b2, b3, b4, fun ht => a1.grown.takes.1 (b5 ht), ?_⟩
        intro e he t ht hT
        obtain ⟨t1, c1, c2, c3⟩ := b2.back ht
        exact c3 _ (a1.conv e he t1 c1 ((turns_core c2 _).1 hT))
      | false =>
        simp only [Bool.false_eq_true, if_false] at h
        cases h
        have hnil : s'.c.outs = [] := by
          simpa using a3.symm
        refine ⟨a1.takes, a1.grown, a2, hnil, fun ht => ?_, a1.conv⟩
        rcases hinv1 ht with h | ⟨o, h, _⟩
        · exact a1.grown.takes.1 h
        · rw [hnil] at h
          simp [flat] at h

/-- Three passes are enough. -/
theorem inner_can {ord : Order} (hord : Drains ord) {n : Nat} {s : St} {progress : Bool}
    (hs : s.Fine reg) (hne : flat s.c.outs ≠ [])
    (htakes : ∀ e, e ∈ flat s.c.outs → LTakes reg s.look e.2 e.1.ty)
    (hturn : (∃ e, e ∈ flat s.c.outs ∧ LTurns reg s.look e.2 e.1.ty) →
      LTakes reg s.look err reg.errTy) :
    ∃ s' left, inner reg err ord false (n + 3) s progress = .ok (s', true, left) ∧
      n ≤ left ∧ s'.Fine reg ∧ s'.c.outs = [] := by
  obtain ⟨s1, more1, pr1, hp1⟩ := pass_can (err := err) (hord (n + 3)) hs htakes
  obtain ⟨a1, a2, a3, a4⟩ := pass_flat (hord (n + 3)) hs hp1
  have hpr1 := a4 hne
  subst hpr1
  simp only [inner, hp1]
  cases more1 with
  | false =>
    exact ⟨s1, n + 2, by simp, by omega, a2, by simpa using a3.symm⟩
  | true =>
    have hn1 : s1.c.outs ≠ [] := by
      intro h; rw [h] at a3; cases a3
    have hf1 : flat s1.c.outs ≠ [] := fun h => hn1 ((flat_nil_iff a2.filled).1 h)
    obtain ⟨e1, he1⟩ := List.exists_mem_of_ne_nil _ hf1
    have hE : LTakes reg s.look err reg.errTy := by
      rcases a1.why with h | ⟨e, he, t, h1, h2, _⟩
      · exact (h e1 he1).elim
      · exact hturn ⟨e, he, t, h1, h2⟩
    have only1 : ∀ e, e ∈ flat s1.c.outs → e.2 = err ∧ e.1.ty = reg.errTy := by
      intro e he
      rcases a1.new e he with h | h
      · exact h.elim
      · exact h
    have ht1 : ∀ e, e ∈ flat s1.c.outs → LTakes reg s1.look e.2 e.1.ty := by
      intro e he
      rw [(only1 e he).1, (only1 e he).2]
      exact a1.grown.takes.2 hE
    obtain ⟨s2, more2, pr2, hp2⟩ := pass_can (err := err) (hord (n + 2)) a2 ht1
    obtain ⟨b1, b2, b3, b4⟩ := pass_flat (hord (n + 2)) a2 hp2
    simp only [if_true, hp2, Bool.or_true, Bool.true_or]
    cases more2 with
    | false =>
      exact ⟨s2, n + 1, by simp, by omega, b2, by simpa using b3.symm⟩
    | true =>
      have only2 : ∀ e, e ∈ flat s2.c.outs → e.2 = err ∧ e.1.ty = reg.errTy := by
        intro e he
        rcases b1.new e he with h | h
        · exact h.elim
        · exact h
      have ht2 : ∀ e, e ∈ flat s2.c.outs → LTakes reg s2.look e.2 e.1.ty := by
        intro e he
        rw [(only2 e he).1, (only2 e he).2]
        exact b1.grown.takes.2 (a1.grown.takes.2 hE)
      obtain ⟨s3, more3, pr3, hp3⟩ := pass_can (err := err) (hord (n + 1)) b2 ht2
      obtain ⟨c1, c2, c3, c4⟩ := pass_flat (hord (n + 1)) b2 hp3
      have hnil : s3.c.outs = [] := by
        apply (flat_nil_iff c2.filled).1
        apply List.eq_nil_iff_forall_not_mem.2
        intro e he
        rcases c1.why with h | ⟨e', he', t, h1, h2, h3⟩
        · exact h e he
        · obtain ⟨g1, g2⟩ := only2 e' he'
          obtain ⟨k1, k2⟩ := only1 e1 he1
          rw [g2] at h2 h3
          rw [g1] at h1
          have := b1.conv e1 he1 t (by rw [k1]; exact h1) (by rw [k2]; exact h2)
          rw [k2] at this
          exact h3 this
      have : more3 = false := by rw [c3, hnil]; rfl
      subst this
      simp only [if_true, hp3, Bool.or_true, Bool.true_or]
      exact ⟨s3, n, by simp, Nat.le_refl _, c2, hnil⟩

end Verif.Diagram
