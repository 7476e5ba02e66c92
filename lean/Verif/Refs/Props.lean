import Verif.Refs.Outcomes

/-
Properties C85 to C90: references to buffers, what joins take through them, and the
layouts that maps of buffers can be turned into.
-/
set_option linter.unusedSectionVars false

namespace Verif.Refs

open Verif.Buffer (Storage)
open Verif.Views (Box Serde)

section
variable {E Ty S : Type} [DecidableEq E] [DecidableEq Ty] [DecidableEq S]
variable {V : Ty → Type} {J : Type}

/-! ### C85 -/

/-- C85. However a reference to a buffer was converted, a join through it takes the oldest
message of the session out of that buffer, or clones it if that is what was asked for
last, and a join that fails changes nothing. `g'` are the registers when the join
happens. -/
def C85_Statement (E Ty S : Type) [DecidableEq E] [DecidableEq Ty] [DecidableEq S]
    (V : Ty → Type) (J : Type) : Prop :=
  ∀ (tr : Traits Ty) (sd : Serde V J) (g0 g g' : Reg Ty) (l : Loc E) (t : Ty)
    (cs : List (Conv Ty)) (r : Ref E Ty) (w : BufWorld E S V) (s : S),
    convs tr g0 (.buffer l t) cs = some (g, r) → g.le g' → IsBuffer w l.source t →
    TakesOldest sd r l.source (asked .pull cs) s w (fetch sd g' w s r).1 (fetch sd g' w s r).2

/-- C85, for conversions that name the right type where nothing checks it and that do not
call `JsonBuffer::join_by_cloning`. A `JsonBuffer` is only covered if it is to be cloned
and the buffer has at most one message, or if the oldest message can be serialised. -/
theorem C85_joins_take_the_oldest_partial (tr : Traits Ty) (sd : Serde V J) (g0 g g' : Reg Ty)
    (l : Loc E) (t : Ty) (cs : List (Conv Ty)) (r : Ref E Ty) (w : BufWorld E S V) (s : S)
    (h : convs tr g0 (.buffer l t) cs = some (g, r)) (hle : g.le g') (hw : IsBuffer w l.source t)
    (ht : rightTypes t cs) (hj : clonesJson false cs = false)
    (hc : r.kind = .json → asked .pull cs = .clone → (stock w l.source s).length ≤ 1)
    (hp : r.kind = .json → asked .pull cs = .pull →
      ∀ x, (stock w l.source s).head? = some x → (sd.enc x.2).isSome) :
    TakesOldest sd r l.source (asked .pull cs) s w (fetch sd g' w s r).1 (fetch sd g' w s r).2 := by
  obtain ⟨h1, h2, h3, _⟩ := convs_facts h (b := .pull) rfl ht
  have hk := convs_known h (b := .pull) rfl ht (by simp) hj
  replace h1 : r.loc = l := h1
  replace h2 : r.ty = t := h2
  replace hk : asked .pull cs = .clone → g.clone t = true := hk
  have hpl : Plain sd g' w s r := by
    cases r with
    | buffer l t => trivial
    | cloneFrom l t => trivial
    | fetch l t f b => trivial
    | any a =>
      intro hb
      have h3' : a.behavior = asked .pull cs := h3
      have h2' : a.ty = t := h2
      rw [h2']
      exact hle.1 _ (hk (h3'.symm.trans hb))
    | json a =>
      have h3' : a.behavior = asked .pull cs := h3
      have h1' : a.loc = l := h1
      simp only [Plain]
      cases hb : a.behavior with
      | pull =>
        rw [h1']
        exact hp rfl (h3'.symm.trans hb)
      | clone =>
        rw [h1']
        exact hc rfl (h3'.symm.trans hb)
  have := fetch_takes sd g' w s r h3 (by rw [h1, h2]; exact hw) hpl
  rw [h1] at this
  exact this

/-! ### C87 -/

/-- C87. A reference stands for the same buffer and the same message type however it is
converted, and joins as was asked last. -/
def C87_Statement (E Ty : Type) [DecidableEq E] [DecidableEq Ty] : Prop :=
  ∀ (tr : Traits Ty) (g g' : Reg Ty) (l : Loc E) (t : Ty) (cs : List (Conv Ty)) (r : Ref E Ty),
    convs tr g (.buffer l t) cs = some (g', r) →
    r.loc = l ∧ r.ty = t ∧ r.Joins (asked .pull cs)

/-- C87, for conversions that name the right type where nothing checks it:
`FetchFromBuffer::<T>::try_from(AnyBuffer)`. -/
theorem C87_references_keep_their_buffer_partial (tr : Traits Ty) (g g' : Reg Ty) (l : Loc E)
    (t : Ty) (cs : List (Conv Ty)) (r : Ref E Ty)
    (h : convs tr g (.buffer l t) cs = some (g', r)) (ht : rightTypes t cs) :
    r.loc = l ∧ r.ty = t ∧ r.Joins (asked .pull cs) := by
  obtain ⟨h1, h2, h3, _⟩ := convs_facts h (b := .pull) rfl ht
  exact ⟨h1, h2, h3⟩

/-- C87, downcasts. `downcast_buffer` succeeds exactly for the kinds of references that
the buffer can have, and then gives a reference of that kind to the buffer. -/
theorem C87_downcasts_succeed (g : Reg Ty) (a : AnyRef E Ty) (k : Kind Ty) :
    ((∃ r, downcast g a k = some r) ↔ Castable g a k) ∧
    ∀ r, downcast g a k = some r → RefersTo a k r :=
  ⟨downcast_iff g a k, fun _ h => downcast_refers h⟩

/-- A `FetchFromBuffer` that assumes the wrong type never joins anything. -/
theorem C87_wrong_type_joins_nothing (sd : Serde V J) (g : Reg Ty) (w : BufWorld E S V) (s : S)
    (a : AnyRef E Ty) (u : Ty) (r : Ref E Ty) (hw : IsBuffer w a.loc.source a.ty) (hu : u ≠ a.ty)
    (h : tryFetch g a u = some r) : fetch sd g w s r = (w, none) := by
  obtain ⟨b, hb⟩ := hw
  have hs : w.storage a.loc.source u = none := by
    unfold BufWorld.storage
    rw [hb]
    exact dif_neg (fun e => hu e.symm)
  unfold tryFetch at h
  split at h
  · simp only [Option.some.injEq] at h
    subst h
    simp [fetch, pullFrom, hs]
  · split at h
    · rename_i hc
      exact absurd hc.2.symm hu
    · simp at h

/-! ### C86 -/

/-- C86. A map of buffers is accepted by a layout exactly if it has every buffer that the
layout needs, as the layout needs it, and no other buffer. The layout then refers to
those buffers. Otherwise the error lists the buffers that are missing and those that do
not fit. -/
def C86_Statement (E Ty : Type) [DecidableEq E] [DecidableEq Ty] : Prop :=
  ∀ (g : Reg Ty) (m : BufMap E Ty) (l : Layout Ty), m.Distinct → l.Proper →
    ((∃ rs, tryFrom g m l = .ok rs) ↔ Supplied g m l ∧ NothingElse m l) ∧
    (∀ rs, tryFrom g m l = .ok rs → Holds m l rs) ∧
    (∀ c, tryFrom g m l = .error c → ∀ i,
      (i ∈ c.missing ↔ (∃ k, (i, k) ∈ needs m l) ∧ Missing m i) ∧
      (i ∈ c.incompatible ↔ ∃ k, (i, k) ∈ needs m l ∧ Unfit g m i k))

theorem holds_of {g : Reg Ty} {m : BufMap E Ty} (hd : m.Distinct) {l : Layout Ty} (hl : l.Proper)
    {rs : List (Ident × Ref E Ty)} (h : tryFrom g m l = .ok rs) : Holds m l rs := by
  have ho := tryFrom_outcome g hd l
  refine ⟨ho.ids rs h, ?_⟩
  intro i k r hk hr
  obtain ⟨k', a, h1, h2, _, h4⟩ := ho.refs rs h i r hr
  rw [kind_unique (needs_nodup hd hl) hk h1]
  exact ⟨a, h2, h4⟩

/-- C86 without the part about other buffers: some layouts accept maps with buffers that
they have no place for. -/
theorem C86_layouts_accept_what_they_need_partial (g : Reg Ty) (m : BufMap E Ty) (l : Layout Ty)
    (hd : m.Distinct) (hl : l.Proper) :
    ((∃ rs, tryFrom g m l = .ok rs) ↔ Supplied g m l) ∧
    (∀ rs, tryFrom g m l = .ok rs → Holds m l rs) ∧
    (∀ c, tryFrom g m l = .error c → ∀ i,
      (i ∈ c.missing ↔ (∃ k, (i, k) ∈ needs m l) ∧ Missing m i) ∧
      (i ∈ c.incompatible ↔ ∃ k, (i, k) ∈ needs m l ∧ Unfit g m i k)) := by
  have ho := tryFrom_outcome g hd l
  exact ⟨ho.ok_iff, fun rs h => holds_of hd hl h, fun c h i => ⟨ho.missing c h i, ho.unfit c h i⟩⟩

/-- C86 in full for the layouts that have room for every identifier, and for vectors. -/
theorem C86_maps_and_vectors_leave_nothing_out (g : Reg Ty) (m : BufMap E Ty) (l : Layout Ty)
    (hd : m.Distinct) (hl : l = .map ∨ l = .jsonAny ∨ ∃ k, l = .vec k) :
    (∃ rs, tryFrom g m l = .ok rs) ↔ Supplied g m l ∧ NothingElse m l := by
  have ho := (tryFrom_outcome g hd l).ok_iff
  refine ⟨fun h => ⟨ho.1 h, ?_⟩, fun h => ho.2 h.1⟩
  rcases hl with rfl | rfl | ⟨k, rfl⟩
  · intro i a hi
    simp only [needs, List.map_map]
    exact List.mem_map_of_mem (f := (·.1)) hi
  · intro i a hi
    simp only [needs, List.map_map]
    exact List.mem_map_of_mem (f := (·.1)) hi
  · exact vec_nothingElse hd (ho.1 h)

/-! ### C88 -/

/-- C88. A join made from a map of buffers takes each message in the way that was asked
for its buffer. -/
def C88_Statement (E Ty S : Type) [DecidableEq E] [DecidableEq Ty] [DecidableEq S]
    (V : Ty → Type) (J : Type) : Prop :=
  ∀ (sd : Serde V J) (g : Reg Ty) (m : BufMap E Ty) (j : Joined Ty) (rs : List (Ident × Ref E Ty))
    (w : BufWorld E S V) (s : S), m.Distinct → m.Separate → j.layout.Proper →
    tryFrom g m j.layout = .ok rs → ClonesKnown g m j.layout → Stocked sd m j.layout w s →
    JoinsAsAsked sd m j.layout w (fetchAll sd g s w rs).1 s (fetchAll sd g s w rs).2

/-- How a reference joins. -/
def Ref.beh : Ref E Ty → Behavior
  | .buffer _ _ => .pull
  | .cloneFrom _ _ => .clone
  | .fetch _ _ f _ => f
  | .any a => a.behavior
  | .json a => a.behavior

theorem beh_of_joins {r : Ref E Ty} {b : Behavior} (h : r.Joins b) : r.beh = b := by
  cases r <;> simp only [Ref.Joins] at h <;> simp [Ref.beh, h]

theorem needs_of_ref {m : BufMap E Ty} {l : Layout Ty} {rs : List (Ident × Ref E Ty)}
    (h : Holds m l rs) {i : Ident} {k : Kind Ty} (hk : (i, k) ∈ needs m l) :
    ∃ r, (i, r) ∈ rs := by
  have : i ∈ rs.map (·.1) := by
    rw [h.1]
    exact List.mem_map_of_mem (f := (·.1)) hk
  simp only [List.mem_map] at this
  obtain ⟨⟨i', r⟩, hm, rfl⟩ := this
  exact ⟨r, hm⟩

theorem need_of_ref {m : BufMap E Ty} {l : Layout Ty} {rs : List (Ident × Ref E Ty)}
    (h : Holds m l rs) {i : Ident} {r : Ref E Ty} (hr : (i, r) ∈ rs) :
    ∃ k a, (i, k) ∈ needs m l ∧ Has m i a ∧ RefersTo a k r := by
  have : i ∈ (needs m l).map (·.1) := by
    rw [← h.1]
    exact List.mem_map_of_mem (f := (·.1)) hr
  simp only [List.mem_map] at this
  obtain ⟨⟨i', k⟩, hm, rfl⟩ := this
  obtain ⟨a, ha, hr'⟩ := h.2 _ k r hm hr
  exact ⟨k, a, hm, ha, hr'⟩

theorem separate_eq {m : BufMap E Ty} (hs : m.Separate) {i i' : Ident} {a a' : AnyRef E Ty}
    (h : Has m i a) (h' : Has m i' a') (he : a.loc.source = a'.loc.source) : i = i' := by
  unfold Has at h h'
  unfold BufMap.Separate at hs
  induction m with
  | nil => simp at h
  | cons p m ih =>
    rw [List.map_cons, List.nodup_cons] at hs
    rcases List.mem_cons.1 h with e | h
    · rcases List.mem_cons.1 h' with e' | h'
      · rw [← e] at e'
        simp only [Prod.mk.injEq] at e'
        exact e'.1.symm
      · refine absurd ?_ hs.1
        rw [← e]
        simp only
        rw [he]
        exact List.mem_map_of_mem (f := fun p : Ident × AnyRef E Ty => p.2.loc.source) h'
    · rcases List.mem_cons.1 h' with e' | h'
      · refine absurd ?_ hs.1
        rw [← e']
        simp only
        rw [← he]
        exact List.mem_map_of_mem (f := fun p : Ident × AnyRef E Ty => p.2.loc.source) h
      · exact ih hs.2 h h'

/-- C88, if every kind of reference that the layout uses keeps what was asked for, and if a
`JsonBuffer` that is to be cloned has one message. The first holds for maps, JSON and
structs (next theorem), and for vectors of buffers that are all to be pulled. -/
theorem C88_joins_take_as_asked_partial (sd : Serde V J) (g : Reg Ty) (m : BufMap E Ty)
    (j : Joined Ty) (rs : List (Ident × Ref E Ty)) (w : BufWorld E S V) (s : S)
    (hd : m.Distinct) (hsep : m.Separate) (hl : j.layout.Proper)
    (h : tryFrom g m j.layout = .ok rs) (hck : ClonesKnown g m j.layout)
    (hst : Stocked sd m j.layout w s)
    (hk : ∀ i k a, (i, k) ∈ needs m j.layout → Has m i a → k.keeps a.behavior = a.behavior)
    (hj : ∀ i a, (i, .json) ∈ needs m j.layout → Has m i a → a.behavior = .clone →
      (stock w a.loc.source s).length ≤ 1) :
    JoinsAsAsked sd m j.layout w (fetchAll sd g s w rs).1 s (fetchAll sd g s w rs).2 := by
  have hh := holds_of hd hl h
  have hready : ∀ q ∈ rs, Ready sd g w s q.2 q.2.beh := by
    rintro ⟨i, r⟩ hq
    obtain ⟨k, a, h1, h2, h3, h4, h5, h6⟩ := need_of_ref hh hq
    rw [hk i k a h1 h2] at h6
    obtain ⟨hb, x, it, hx, hit⟩ := hst i k a h1 h2
    simp only
    refine ⟨by rw [beh_of_joins h6]; exact h6, by rw [h4, h5]; exact hb, ?_,
      ⟨x, it, by rw [h4]; exact hx, by rw [h3]; exact hit⟩⟩
    cases r with
    | buffer l t => trivial
    | cloneFrom l t => trivial
    | fetch l t f b => trivial
    | any a' =>
      intro hb'
      have h6' : a'.behavior = a.behavior := h6
      have h5' : a'.ty = a.ty := h5
      rw [h5']
      exact hck i k a h1 h2 (Or.inl (h6'.symm.trans hb'))
    | json a' =>
      have h6' : a'.behavior = a.behavior := h6
      have h4' : a'.loc = a.loc := h4
      have h3' : Kind.json = k := h3
      subst h3'
      simp only [Plain, h4', h6']
      cases hb' : a.behavior with
      | pull =>
        intro y hy
        rw [hx] at hy
        simp only [Option.some.injEq] at hy
        subst hy
        simp only [shown, Option.map_eq_some_iff] at hit
        obtain ⟨j', hj', _⟩ := hit
        simp [hj']
      | clone => exact hj i a h1 h2 hb'
  have hnd : (rs.map fun q => q.2.loc.source).Nodup := by
    have hids : (rs.map (·.1)).Nodup := by
      rw [hh.1]
      exact needs_nodup hd hl
    rw [List.nodup_iff_pairwise_ne, List.pairwise_map] at hids ⊢
    refine List.Pairwise.imp_of_mem ?_ hids
    rintro ⟨i, r⟩ ⟨i', r'⟩ hq hq' hne he
    obtain ⟨k, a, _, h2, _, h4, _⟩ := need_of_ref hh hq
    obtain ⟨k', a', _, h2', _, h4', _⟩ := need_of_ref hh hq'
    simp only at he hne
    rw [h4, h4'] at he
    exact hne (separate_eq hsep h2 h2' he)
  obtain ⟨w', items, e1, e2, e3, e4, e5⟩ := fetchAll_facts sd g s Ref.beh rs w hnd hready
  have hiff : ∀ e, (∃ q ∈ rs, q.2.loc.source = e ∧ q.2.beh = .pull) ↔
      ∃ i k a, (i, k) ∈ needs m j.layout ∧ Has m i a ∧ a.loc.source = e ∧ a.behavior = .pull := by
    intro e
    constructor
    · rintro ⟨⟨i, r⟩, hq, hqe, hqb⟩
      obtain ⟨k, a, h1, h2, h3, h4, h5, h6⟩ := need_of_ref hh hq
      rw [hk i k a h1 h2] at h6
      simp only at hqe hqb
      exact ⟨i, k, a, h1, h2, by rw [← h4]; exact hqe, by rw [← beh_of_joins h6]; exact hqb⟩
    · rintro ⟨i, k, a, h1, h2, hae, hab⟩
      obtain ⟨r, hr⟩ := needs_of_ref hh h1
      obtain ⟨a', h2', h3, h4, h5, h6⟩ := hh.2 i k r h1 hr
      rw [has_unique hd h2' h2] at h4 h6
      rw [hk i k a h1 h2] at h6
      exact ⟨(i, r), hr, by simp only; rw [h4]; exact hae, by
        simp only; rw [beh_of_joins h6]; exact hab⟩
  rw [e1]
  refine ⟨items, rfl, e2.trans hh.1, ?_, ?_, ?_⟩
  · intro i k a h1 h2
    obtain ⟨r, hr⟩ := needs_of_ref hh h1
    obtain ⟨a', h2', h3, h4, _, _⟩ := hh.2 i k r h1 hr
    rw [has_unique hd h2' h2] at h4
    obtain ⟨x, it, hx, hit, hm⟩ := e3 (i, r) hr
    simp only [h4, h3] at hx hit
    exact ⟨x, it, hx, hit, hm⟩
  · rintro e s' ⟨h1, h2⟩
    exact e4 e s' ⟨h1, (hiff e).2 h2⟩
  · intro e s' hno
    exact e5 e s' (fun hc => hno ⟨hc.1, (hiff e).1 hc.2⟩)

/-- Maps, JSON messages, and structs whose fields have the default kind of reference use
kinds that keep what was asked for. -/
theorem C88_default_kinds_keep (m : BufMap E Ty) (j : Joined Ty)
    (hv : ∀ t, j ≠ .vec t) (hs : ∀ fs, j = .struct_ fs → ∀ f ∈ fs, ∃ t, f.2 = .inl t)
    (i : Ident) (k : Kind Ty) (b : Behavior) (h : (i, k) ∈ needs m j.layout) : k.keeps b = b := by
  cases j with
  | map =>
    simp only [Joined.layout, needs, List.mem_map, Prod.mk.injEq] at h
    obtain ⟨_, _, _, rfl⟩ := h
    rfl
  | vec t => exact absurd rfl (hv t)
  | jsonMap =>
    simp only [Joined.layout, needs, List.mem_map, Prod.mk.injEq] at h
    obtain ⟨_, _, _, rfl⟩ := h
    rfl
  | json =>
    simp only [Joined.layout, needs, List.mem_map, Prod.mk.injEq] at h
    obtain ⟨_, _, _, rfl⟩ := h
    rfl
  | struct_ fs =>
    simp only [Joined.layout, needs, List.map_map, List.mem_map, Function.comp, Prod.mk.injEq] at h
    obtain ⟨f, hf, _, rfl⟩ := h
    obtain ⟨t, ht⟩ := hs fs rfl f hf
    rw [ht]
    rfl

/-! ### C89 -/

/-- C89. Buffers joined into one JSON message: the messages of indices make an array, those
of names an object; if there are both, the message has the array under `array` and the
object under `object`. The order in which the hash map is walked has no effect on this. -/
theorem C89_json_join (xs : List (Ident × J)) (hn : (xs.map (·.1)).Nodup) :
    ∃ a o, ArrayOf xs a ∧ ObjectOf xs o ∧
      (((∃ i j, atIndex xs i = some j) ∧ (∃ n j, atName xs n = some j) →
        assemble xs = .object [("array", .array a), ("object", .object o)]) ∧
      ((∃ i j, atIndex xs i = some j) ∧ (¬ ∃ n j, atName xs n = some j) → assemble xs = .array a) ∧
      ((¬ ∃ i j, atIndex xs i = some j) ∧ (∃ n j, atName xs n = some j) → assemble xs = .object o) ∧
      ((¬ ∃ i j, atIndex xs i = some j) ∧ (¬ ∃ n j, atName xs n = some j) → assemble xs = .null)) := by
  have hf := sortOut_facts xs [] [] [] (by simpa using hn) objectOf_nil arrayOf_nil
  simp only [List.nil_append] at hf
  generalize hr : sortOut xs ([], []) = r at hf
  obtain ⟨o, a⟩ := r
  obtain ⟨ho, ha⟩ := hf
  have hai : a ≠ [] ↔ ∃ i j, atIndex xs i = some j := by
    constructor
    · intro hne
      have : 0 < a.length := by
        cases a with
        | nil => exact absurd rfl hne
        | cons x a => simp
      obtain ⟨i, j, _, h⟩ := (ha.2.2 0).1 this
      exact ⟨i, j, h⟩
    · rintro ⟨i, j, h⟩ e
      have := (ha.2.2 i).2 ⟨i, j, Nat.le_refl _, h⟩
      rw [e] at this
      simp at this
  have hoi : o ≠ [] ↔ ∃ n j, atName xs n = some j := by
    constructor
    · intro hne
      cases o with
      | nil => exact absurd rfl hne
      | cons x o =>
        obtain ⟨j, h, _⟩ := (ho.2 x.1 x.2).1 (by simp)
        exact ⟨x.1, j, h⟩
    · rintro ⟨n, j, h⟩ e
      have := (ho.2 n (.msg j)).2 ⟨j, h, rfl⟩
      rw [e] at this
      simp at this
  refine ⟨a, o, ha, ho, ?_⟩
  rw [← hai, ← hoi]
  simp only [assemble, hr]
  refine ⟨?_, ?_, ?_, ?_⟩
  · rintro ⟨h1, h2⟩
    rw [if_pos ⟨h2, h1⟩]
  · rintro ⟨h1, h2⟩
    rw [if_neg (fun h => h2 h.1), if_neg h2, if_pos h1]
  · rintro ⟨h1, h2⟩
    rw [if_neg (fun h => h1 h.2), if_pos h2]
  · rintro ⟨h1, h2⟩
    rw [if_neg (fun h => h2 h.1), if_neg h2, if_neg h1]

/-! ### C90 -/

/-- C90. The hints of a layout tell which maps it accepts: if the layout gives hints for
the identifiers of a map, and each buffer is as its hint says, then the layout accepts the
map. -/
def C90_Statement (E Ty : Type) [DecidableEq E] [DecidableEq Ty] : Prop :=
  ∀ (g : Reg Ty) (m : BufMap E Ty) (l : Layout Ty) (hs : List (Ident × Hint Ty)),
    m.Distinct → l.Proper → ClonesKnown g m l → hints (m.map (·.1)) l = .ok hs →
    (∀ i h a, (i, h) ∈ hs → Has m i a → h.Allows g a) → ∃ rs, tryFrom g m l = .ok rs

/-- A vector is given the indices from 0 on. -/
def Layout.Counted (m : BufMap E Ty) : Layout Ty → Prop
  | .vec _ => ∀ n, n < m.length → ∃ a, Has m (.index n) a
  | _ => True

theorem castable_of_hint {g : Reg Ty} {a : AnyRef E Ty} {k : Kind Ty} (h : k.hint.Allows g a)
    (hc : a.behavior = .clone ∨ (∃ u, k = .cloneFrom u) → g.clone a.ty = true) :
    Castable g a k := by
  cases k with
  | buffer t => exact h
  | cloneFrom t =>
    have h' : a.ty = t := h
    exact ⟨h, h' ▸ hc (Or.inr ⟨t, rfl⟩)⟩
  | fetch t =>
    have h' : a.ty = t := h
    exact ⟨h, fun hb => h' ▸ hc (Or.inl hb)⟩
  | any => trivial
  | json => exact h

theorem hint_of_castable {g : Reg Ty} {a : AnyRef E Ty} {k : Kind Ty} (h : Castable g a k) :
    k.hint.Allows g a := by
  cases k with
  | buffer t => exact h
  | cloneFrom t => exact h.1
  | fetch t => exact h.1
  | any => trivial
  | json => exact h

/-- The hints that a layout gives, if it gives any. -/
theorem hints_ok {m : BufMap E Ty} (hd : m.Distinct) {l : Layout Ty} (hl : l.Proper)
    {hs : List (Ident × Hint Ty)} (h : hints (m.map (·.1)) l = .ok hs) (hc : l.Counted m) :
    ∀ i k, (i, k) ∈ needs m l → (∃ a, Has m i a) ∧ (i, k.hint) ∈ hs := by
  intro i k hk
  have hmem : ∀ {i : Ident}, i ∈ m.map (·.1) → ∃ a, Has m i a := by
    intro i hi
    simp only [List.mem_map] at hi
    obtain ⟨⟨i', a⟩, hp, rfl⟩ := hi
    exact ⟨a, hp⟩
  cases l with
  | map =>
    simp only [hints] at h
    rw [loop_evaluate _ _ hd] at h
    simp only [Except.ok.injEq] at h
    simp only [needs, List.mem_map, Prod.mk.injEq] at hk
    obtain ⟨p, hp, rfl, rfl⟩ := hk
    refine ⟨⟨p.2, hp⟩, ?_⟩
    rw [← h]
    exact List.mem_map.2 ⟨p.1, List.mem_filter.2 ⟨List.mem_map.2 ⟨p, hp, rfl⟩, rfl⟩, rfl⟩
  | single k' =>
    rw [hints_single] at h
    simp only [needs, List.mem_singleton, Prod.mk.injEq] at hk
    obtain ⟨rfl, rfl⟩ := hk
    split at h
    · rename_i hi
      simp only [Except.ok.injEq] at h
      exact ⟨hmem hi, by rw [← h]; simp⟩
    · simp at h
  | vec k' =>
    simp only [hints] at h
    rw [loop_evaluate _ _ hd] at h
    simp only [Except.ok.injEq] at h
    simp only [needs, List.mem_map, List.mem_range, Prod.mk.injEq] at hk
    obtain ⟨n, hn, rfl, rfl⟩ := hk
    obtain ⟨a, ha⟩ := hc n hn
    refine ⟨⟨a, ha⟩, ?_⟩
    rw [← h]
    exact List.mem_map.2 ⟨.index n, List.mem_filter.2 ⟨List.mem_map.2 ⟨(.index n, a), ha, rfl⟩, rfl⟩, rfl⟩
  | jsonMap =>
    simp only [hints] at h
    rw [loop_evaluate _ _ hd] at h
    simp only [Except.ok.injEq] at h
    simp only [needs, List.mem_map, List.mem_filter, Prod.mk.injEq] at hk
    obtain ⟨p, ⟨hp, hpn⟩, rfl, rfl⟩ := hk
    refine ⟨⟨p.2, hp⟩, ?_⟩
    rw [← h]
    exact List.mem_map.2 ⟨p.1, List.mem_filter.2 ⟨List.mem_map.2 ⟨p, hp, rfl⟩, hpn⟩, rfl⟩
  | jsonAny =>
    simp only [hints] at h
    rw [loop_evaluate _ _ hd] at h
    simp only [Except.ok.injEq] at h
    simp only [needs, List.mem_map, Prod.mk.injEq] at hk
    obtain ⟨p, hp, rfl, rfl⟩ := hk
    refine ⟨⟨p.2, hp⟩, ?_⟩
    rw [← h]
    exact List.mem_map.2 ⟨p.1, List.mem_filter.2 ⟨List.mem_map.2 ⟨p, hp, rfl⟩, rfl⟩, rfl⟩
  | fields fs =>
    have hall := (hints_fields hl).1 ⟨hs, h⟩
    have he := hints_fields_ok hl h
    simp only [needs, List.mem_map, Prod.mk.injEq] at hk
    obtain ⟨f, hf, rfl, rfl⟩ := hk
    refine ⟨hmem (hall f hf), ?_⟩
    rw [he]
    exact List.mem_map_of_mem (f := fun f : String × Kind Ty => (Ident.name f.1, f.2.hint)) hf

/-- C90, if a vector is given the indices from 0 on. -/
theorem C90_hints_tell_what_is_accepted_partial (g : Reg Ty) (m : BufMap E Ty) (l : Layout Ty)
    (hs : List (Ident × Hint Ty)) (hd : m.Distinct) (hl : l.Proper) (hck : ClonesKnown g m l)
    (h : hints (m.map (·.1)) l = .ok hs) (ha : ∀ i h a, (i, h) ∈ hs → Has m i a → h.Allows g a)
    (hc : l.Counted m) : ∃ rs, tryFrom g m l = .ok rs := by
  refine (tryFrom_outcome g hd l).ok_iff.2 ?_
  intro i k hk
  obtain ⟨⟨a, hi⟩, hh⟩ := hints_ok hd hl h hc i k hk
  exact ⟨a, hi, castable_of_hint (ha i _ a hh hi) (hck i k a hk hi)⟩

/-- C90, the other way round: a layout that accepts a map gives hints for its identifiers,
and every buffer that it needs is as its hint says. -/
theorem C90_accepted_maps_have_hints (g : Reg Ty) (m : BufMap E Ty) (l : Layout Ty)
    (rs : List (Ident × Ref E Ty)) (hd : m.Distinct) (hl : l.Proper)
    (h : tryFrom g m l = .ok rs) :
    ∃ hs, hints (m.map (·.1)) l = .ok hs ∧
      ∀ i k, (i, k) ∈ needs m l → (i, k.hint) ∈ hs ∧ ∃ a, Has m i a ∧ k.hint.Allows g a := by
  have hs := (tryFrom_outcome g hd l).ok_iff.1 ⟨rs, h⟩
  have hex : ∃ hs, hints (m.map (·.1)) l = .ok hs := by
    cases l with
    | map => exact ⟨_, loop_evaluate _ _ hd⟩
    | vec k => exact ⟨_, loop_evaluate _ _ hd⟩
    | jsonMap => exact ⟨_, loop_evaluate _ _ hd⟩
    | jsonAny => exact ⟨_, loop_evaluate _ _ hd⟩
    | single k =>
      obtain ⟨a, ha, _⟩ := hs (.index 0) k (by simp [needs])
      rw [hints_single, if_pos (List.mem_map_of_mem (f := (·.1)) ha)]
      exact ⟨_, rfl⟩
    | fields fs =>
      refine (hints_fields hl).2 ?_
      intro f hf
      obtain ⟨a, ha, _⟩ := hs (.name f.1) f.2 (by
        simp only [needs, List.mem_map]
        exact ⟨f, hf, rfl⟩)
      exact List.mem_map_of_mem (f := (·.1)) ha
  obtain ⟨hs', hh⟩ := hex
  have hc : l.Counted m := by
    cases l with
    | vec k =>
      intro n hn
      obtain ⟨a, ha, _⟩ := hs (.index n) k (by
        simp only [needs, List.mem_map, List.mem_range]
        exact ⟨n, hn, rfl⟩)
      exact ⟨a, ha⟩
    | map => trivial
    | single k => trivial
    | jsonMap => trivial
    | jsonAny => trivial
    | fields fs => trivial
  refine ⟨hs', hh, ?_⟩
  intro i k hk
  obtain ⟨a, ha, hca⟩ := hs i k hk
  exact ⟨(hints_ok hd hl hh hc i k hk).2, a, ha, hint_of_castable hca⟩

end

/-! ### Examples and witnesses

Buffers and sessions are numbers. There are two message types: `false` is cloneable, and
`true` is not registered for cloning unless stated. All messages are numbers, and the
number 0 cannot be serialised. -/

section Examples

abbrev exV : Bool → Type := fun _ => Nat

def exSd : Serde exV Nat where
  enc := fun x => match x with
    | 0 => none
    | n + 1 => some n
  dec := fun _ j => some (j + 1)

def exTr : Traits Bool := ⟨fun _ => true, fun _ => true, fun _ => false⟩

def exReg : Reg Bool := ⟨fun t => !t, fun _ => true⟩

def exLoc (n : Nat) : Loc Nat := ⟨100, n⟩

/-- Buffer 1 has messages 5 and 6 of type `false` for session 7, buffer 2 has message 8 of
type `true`, buffer 3 the message 0 of type `true`. -/
def exWorld : BufWorld Nat Nat exV
  | 1 => some ⟨false, { retention := .keepAll, queues := fun s => if s = 7 then some [6, 5] else none }⟩
  | 2 => some ⟨true, { retention := .keepAll, queues := fun s => if s = 7 then some [8] else none }⟩
  | 3 => some ⟨true, { retention := .keepAll, queues := fun s => if s = 7 then some [0] else none }⟩
  | _ => none

/-- C85: a clone taken through an `AnyBuffer` that became a `FetchFromBuffer`. -/
example : ∃ g r, convs exTr exReg (.buffer (exLoc 1) false)
      [.joinByCloning, .toAny, .downcast (.fetch false)] = some (g, r) ∧
    rightTypes false [.joinByCloning, .toAny, .downcast (.fetch false)] ∧
    clonesJson false [.joinByCloning, .toAny, .downcast (.fetch false)] = false ∧
    r.kind ≠ .json ∧ IsBuffer exWorld 1 false ∧ stock exWorld 1 7 = [⟨false, 5⟩, ⟨false, 6⟩] ∧
    (fetch exSd g exWorld 7 r).2 = some (.value ⟨false, 5⟩) ∧
    stock (fetch exSd g exWorld 7 r).1 1 7 = [⟨false, 5⟩, ⟨false, 6⟩] :=
  ⟨_, _, rfl, by intro u hu; simp at hu, rfl, by decide, ⟨_, rfl⟩, rfl, rfl, rfl⟩

/-- C85: a `JsonBuffer` that pulls a message which can be serialised. -/
example : ∃ g r, convs exTr exReg (.buffer (exLoc 2) true) [.toJson] = some (g, r) ∧
    r.kind = .json ∧ (∀ x, (stock exWorld 2 7).head? = some x → (exSd.enc x.2).isSome) ∧
    (fetch exSd g exWorld 7 r).2 = some (.json 7) ∧ stock (fetch exSd g exWorld 7 r).1 2 7 = [] := by
  refine ⟨_, _, rfl, rfl, ?_, rfl, rfl⟩
  intro x hx
  have hx' : some (⟨true, 8⟩ : Box exV) = some x := hx
  simp only [Option.some.injEq] at hx'
  subst hx'
  rfl

/-- C85 does not hold: a `JsonBuffer` that is to be cloned gives the newest message. -/
theorem C85_violated_by_json_cloning : ¬ C85_Statement Nat Bool Nat exV Nat := by
  intro h
  have h1 : some (Item.json 5 : Item exV Nat) = some (.json 4) ∧ _ :=
    h exTr exSd exReg _ _ (exLoc 1) false [.joinByCloning, .toJson] _ exWorld 7 rfl
      ⟨fun _ h => h, fun _ h => h⟩ ⟨_, rfl⟩
  simp at h1

/-- C85 does not hold: a `JsonBuffer` that pulls loses a message that cannot be
serialised. -/
theorem C85_violated_by_failed_serialisation : ¬ C85_Statement Nat Bool Nat exV Nat := by
  intro h
  have h1 : _ ∧ stock _ = stock exWorld :=
    h exTr exSd exReg _ _ (exLoc 3) true [.toJson] _ exWorld 7 rfl
      ⟨fun _ h => h, fun _ h => h⟩ ⟨_, rfl⟩
  have h2 : ([] : List (Box exV)) = [⟨true, 0⟩] := congrFun (congrFun h1.2 3) 7
  simp at h2

/-- C85 does not hold: `JsonBuffer::join_by_cloning` does not check that the type can be
cloned, and an `AnyBuffer` made from it cannot be joined. -/
theorem C85_violated_by_unregistered_clones : ¬ C85_Statement Nat Bool Nat exV Nat := by
  intro h
  have h1 : (none : Option (Item exV Nat)) = some (.value ⟨true, 8⟩) ∧ _ :=
    h exTr exSd exReg _ _ (exLoc 2) true [.toJson, .joinByCloning, .toAny] _ exWorld 7 rfl
      ⟨fun _ h => h, fun _ h => h⟩ ⟨_, rfl⟩
  simp at h1

/-- C87: a reference that goes through four kinds and two requests. -/
example : ∃ g r, convs exTr exReg (.buffer (exLoc 1) false)
      [.joinByCloning, .toJson, .joinByPulling, .toAny, .tryFetch false] = some (g, r) ∧
    rightTypes false [.joinByCloning, .toJson, .joinByPulling, .toAny, .tryFetch false] ∧
    r = .fetch (exLoc 1) false .pull .pull :=
  ⟨_, _, rfl, by intro u hu; simpa using hu, rfl⟩

/-- C87 does not hold: `FetchFromBuffer::<T>::try_from` accepts a buffer of other messages
if it is to be pulled. -/
theorem C87_violated : ¬ C87_Statement Nat Bool := by
  intro h
  have h1 := (h exTr exReg _ (exLoc 1) false [.toAny, .tryFetch true] _ rfl).2.1
  simp [Ref.ty] at h1

/-- C86: a struct with three fields, of which one is missing and one has the wrong type. -/
example : ∃ c, tryFrom exReg [(.name "a", ⟨exLoc 1, false, .pull⟩), (.name "b", ⟨exLoc 2, true, .pull⟩)]
      (.fields [("a", .buffer true), ("b", .any), ("c", .json)]) = .error c ∧
    c.missing = [.name "c"] ∧ c.incompatible = [.name "a"] :=
  ⟨_, rfl, rfl, rfl⟩

/-- C86: a vector of two buffers, given out of order. -/
example : ∃ rs, tryFrom exReg [(.index 1, ⟨exLoc 1, false, .clone⟩), (.index 0, ⟨exLoc 4, false, .pull⟩)]
      (.vec (.fetch false)) = .ok rs ∧
    rs = [(.index 0, .fetch (exLoc 4) false .pull .pull), (.index 1, .fetch (exLoc 1) false .clone .clone)] :=
  ⟨_, rfl, rfl⟩

/-- C86 does not hold: a buffer with an identifier that the layout has no place for is
ignored. -/
theorem C86_violated : ¬ C86_Statement Nat Bool := by
  intro h
  have h1 := (h exReg [(.index 0, ⟨exLoc 1, false, .pull⟩), (.name "x", ⟨exLoc 2, true, .pull⟩)]
    (.single (.buffer false)) (by unfold BufMap.Distinct; decide) trivial).1.1 ⟨_, rfl⟩
  have h2 := h1.2 (.name "x") _ (by simp [Has]; rfl)
  simp [needs] at h2

/-- C86 does not hold of `HashMap<String, JsonBuffer>` either: it records that an index is
forbidden and then accepts the map. -/
theorem C86_violated_by_forbidden_buffers : ¬ C86_Statement Nat Bool := by
  intro h
  have h1 := (h exReg [(.index 0, ⟨exLoc 1, false, .pull⟩)] .jsonMap (by unfold BufMap.Distinct; decide) trivial).1.1 ⟨_, rfl⟩
  have h2 := h1.2 (.index 0) _ (by simp [Has]; rfl)
  simp [needs, Ident.isName] at h2

/-- C88: a struct of a buffer that is cloned and one that is pulled. -/
example : ∃ rs items, tryFrom exReg
      [(.name "b", ⟨exLoc 2, true, .pull⟩), (.name "a", ⟨exLoc 1, false, .clone⟩)]
      (Joined.struct_ [("a", .inl false), ("b", .inl true)]).layout = .ok rs ∧
    (fetchAll exSd exReg 7 exWorld rs).2 = some items ∧
    items = [(.name "a", .value ⟨false, 5⟩), (.name "b", .value ⟨true, 8⟩)] ∧
    stock (fetchAll exSd exReg 7 exWorld rs).1 1 7 = [⟨false, 5⟩, ⟨false, 6⟩] ∧
    stock (fetchAll exSd exReg 7 exWorld rs).1 2 7 = [] :=
  ⟨_, _, rfl, rfl, rfl, rfl, rfl⟩

/-- The buffers of the example above meet the hypotheses. -/
example : ∀ rs, tryFrom exReg
      [(.name "b", ⟨exLoc 2, true, .pull⟩), (.name "a", ⟨exLoc 1, false, .clone⟩)]
      (Joined.struct_ [("a", .inl false), ("b", .inl true)]).layout = .ok rs →
    JoinsAsAsked exSd [(.name "b", ⟨exLoc 2, true, .pull⟩), (.name "a", ⟨exLoc 1, false, .clone⟩)]
      (Joined.struct_ [("a", .inl false), ("b", .inl true)]).layout exWorld
      (fetchAll exSd exReg 7 exWorld rs).1 7 (fetchAll exSd exReg 7 exWorld rs).2 := by
  intro rs h
  have hn : ∀ i k, (i, k) ∈ needs (E := Nat) [(.name "b", ⟨exLoc 2, true, .pull⟩), (.name "a", ⟨exLoc 1, false, .clone⟩)]
      (Joined.struct_ [("a", .inl false), ("b", .inl true)]).layout →
      (i = .name "a" ∧ k = .fetch false) ∨ (i = .name "b" ∧ k = .fetch true) := by
    intro i k hk
    simpa [needs, Joined.layout] using hk
  have hh : ∀ i a, Has (E := Nat) [(.name "b", ⟨exLoc 2, true, .pull⟩), (.name "a", ⟨exLoc 1, false, .clone⟩)] i a →
      (i = .name "b" ∧ a = ⟨exLoc 2, true, .pull⟩) ∨ (i = .name "a" ∧ a = ⟨exLoc 1, false, .clone⟩) := by
    intro i a ha
    simpa [Has] using ha
  refine C88_joins_take_as_asked_partial exSd exReg _ _ rs exWorld 7
    (by unfold BufMap.Distinct; decide) (by unfold BufMap.Separate; decide)
    (by simp [Joined.layout, Layout.Proper]) h ?_ ?_ ?_ ?_
  · intro i k a hk ha hc
    rcases hh i a ha with ⟨rfl, rfl⟩ | ⟨rfl, rfl⟩
    · rcases hn _ k hk with ⟨h1, _⟩ | ⟨_, rfl⟩
      · simp at h1
      · simp at hc
    · rfl
  · intro i k a hk ha
    rcases hh i a ha with ⟨rfl, rfl⟩ | ⟨rfl, rfl⟩
    · rcases hn _ k hk with ⟨h1, _⟩ | ⟨_, rfl⟩
      · simp at h1
      · exact ⟨⟨_, rfl⟩, _, _, rfl, rfl⟩
    · rcases hn _ k hk with ⟨_, rfl⟩ | ⟨h1, _⟩
      · exact ⟨⟨_, rfl⟩, _, _, rfl, rfl⟩
      · simp at h1
  · intro i k a hk _
    refine C88_default_kinds_keep _ _ (fun t => by simp) ?_ i k _ hk
    intro fs e f hf
    simp only [Joined.struct_.injEq] at e
    subst e
    simp only [List.mem_cons, List.not_mem_nil, or_false] at hf
    rcases hf with rfl | rfl
    · exact ⟨_, rfl⟩
    · exact ⟨_, rfl⟩
  · intro i a hk
    rcases hn i _ hk with ⟨_, h1⟩ | ⟨_, h1⟩ <;> simp at h1

/-- C88 does not hold: a join into a `Vec` takes the messages out of buffers that are to be
cloned. -/
theorem C88_violated : ¬ C88_Statement Nat Bool Nat exV Nat := by
  intro h
  obtain ⟨items, _, _, _, _, h5⟩ := h exSd exReg [(.index 0, ⟨exLoc 1, false, .clone⟩)] (.vec false)
    _ exWorld 7 (by unfold BufMap.Distinct; decide) (by unfold BufMap.Separate; decide) trivial rfl
    (by
      intro i k a _ ha _
      simp only [Has, List.mem_singleton, Prod.mk.injEq] at ha
      rw [ha.2]
      rfl)
    (by
      intro i k a hk ha
      simp only [Has, List.mem_singleton, Prod.mk.injEq] at ha
      have hk' : (i, k) ∈ [(Ident.index 0, Kind.buffer false)] := hk
      simp only [List.mem_singleton, Prod.mk.injEq] at hk'
      rw [ha.2, hk'.2]
      exact ⟨⟨_, rfl⟩, _, _, rfl, rfl⟩)
  have h6 := h5 1 7 (by
    rintro ⟨_, i, k, a, _, ha, _, hb⟩
    simp only [Has, List.mem_singleton, Prod.mk.injEq] at ha
    rw [ha.2] at hb
    simp at hb)
  have h7 : ([⟨false, 6⟩] : List (Box exV)) = [⟨false, 5⟩, ⟨false, 6⟩] := h6
  simp at h7

/-- C89: indices 2 and 0 and a name, in this order. -/
example : (([(.index 2, 12), (.name "a", 5), (.index 0, 10)] : List (Ident × Nat)).map (·.1)).Nodup ∧
    assemble ([(.index 2, 12), (.name "a", 5), (.index 0, 10)] : List (Ident × Nat)) =
      .object [("array", .array [.msg 10, .null, .msg 12]), ("object", .object [("a", .msg 5)])] :=
  ⟨by decide, rfl⟩

/-- C90: the hints of a struct, for a map that has one more buffer. -/
example : hints [.name "b", .name "x", .name "a"] (.fields [("a", Kind.fetch true), ("b", .any)]) =
    .ok [(.name "a", .exact true), (.name "b", .anyMessage)] := rfl

/-- C90 does not hold: a `Vec` gives hints for the indices 0 and 2 but does not accept
them. -/
theorem C90_violated : ¬ C90_Statement Nat Bool := by
  intro h
  have h1 := h exReg [(.index 0, ⟨exLoc 1, false, .pull⟩), (.index 2, ⟨exLoc 4, false, .pull⟩)]
    (.vec (.buffer false)) _ (by unfold BufMap.Distinct; decide) trivial
    (by
      intro i k a _ ha _
      simp only [Has, List.mem_cons, List.not_mem_nil, or_false, Prod.mk.injEq] at ha
      rcases ha with ha | ha <;> rw [ha.2] <;> rfl)
    rfl
    (by
      intro i h a hh ha
      have hh' : (i, h) ∈ [(Ident.index 0, Hint.exact false), (Ident.index 2, Hint.exact false)] := hh
      simp only [Has, List.mem_cons, List.not_mem_nil, or_false, Prod.mk.injEq] at ha hh'
      rcases ha with ha | ha <;> rcases hh' with hh' | hh' <;> rw [ha.2, hh'.2] <;> rfl)
  obtain ⟨rs, hrs⟩ := h1
  have h2 : (Except.error (Compat.mk [.index 1] [] []) : Except Compat (List (Ident × Ref Nat Bool))) =
    .ok rs := hrs
  simp at h2

end Examples

end Verif.Refs
