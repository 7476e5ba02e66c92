import Verif.Diagram.FlatLemmas

set_option linter.unusedSectionVars false
set_option linter.unusedSimpArgs false

/-
The construction of diagrams whose operations declare their types: the operations.
-/
namespace Verif.Diagram

variable {reg : Registry} {err : Ref}

/-- The targets that are added. -/
def tg : List Act → List (Ref × Target)
  | [] => []
  | .target r c sc :: rest => (r, ⟨c, sc⟩) :: tg rest
  | _ :: rest => tg rest

/-- The buffers that are added. -/
def bf : List Act → List (Ref × BufRef)
  | [] => []
  | .buffer r b :: rest => (r, b) :: bf rest
  | _ :: rest => bf rest

/-- Only outputs, targets and buffers are added. -/
def Act.Simple : Act → Prop
  | .out _ _ _ => True
  | .target _ _ _ => True
  | .buffer _ _ => True
  | _ => False

theorem tg_append (a b : List Act) : tg (a ++ b) = tg a ++ tg b := by
  induction a with
  | nil => rfl
  | cons x rest ih => cases x <;> simp [tg, ih]

theorem bf_append (a b : List Act) : bf (a ++ b) = bf a ++ bf b := by
  induction a with
  | nil => rfl
  | cons x rest ih => cases x <;> simp [bf, ih]

theorem lookup_none_of {α β : Type} [BEq α] [LawfulBEq α] {l : List (α × β)} {k : α}
    (h : k ∉ l.map (·.1)) : l.lookup k = none := by
  induction l with
  | nil => rfl
  | cons e rest ih =>
    obtain ⟨k', v⟩ := e
    simp only [List.map_cons, List.mem_cons, not_or] at h
    have : (k == k') = false := by simpa using h.1
    simp only [List.lookup_cons, this]
    exact ih h.2

/-- What the calls of `as` do to a state. -/
structure Added (s : St) (as : List Act) (s' : St) : Prop where
  targets : s'.c.targets = s.c.targets ++ tg as
  bufs : s'.c.bufs = s.c.bufs ++ bf as
  children : s'.children = s.children
  from_ : ∀ o r, (o, r) ∈ flat s'.c.outs → (o, r) ∈ flat s.c.outs ∨ ∃ sc, .out r o.ty sc ∈ as
  keep : ∀ e, e ∈ flat s.c.outs → e ∈ flat s'.c.outs
  outs : ∀ r ty sc, .out r ty sc ∈ as → ∃ o : Out, o.ty = ty ∧ (o, r) ∈ flat s'.c.outs
  filled : Filled s.c.outs → Filled s'.c.outs

theorem Added.nil (s : St) : Added s [] s where
  targets := by simp [tg]
  bufs := by simp [bf]
  children := rfl
  from_ _ _ h := .inl h
  keep _ h := h
  outs _ _ _ h := by cases h
  filled h := h

theorem Added.trans {s s1 s2 : St} {a b : List Act} (h : Added s a s1) (g : Added s1 b s2) :
    Added s (a ++ b) s2 where
  targets := by rw [g.targets, h.targets, tg_append, List.append_assoc]
  bufs := by rw [g.bufs, h.bufs, bf_append, List.append_assoc]
  children := g.children.trans h.children
  from_ o r hm := by
    rcases g.from_ o r hm with hm | ⟨sc, hm⟩
    · rcases h.from_ o r hm with hm | ⟨sc, hm⟩
      · exact .inl hm
      · exact .inr ⟨sc, List.mem_append_left _ hm⟩
    · exact .inr ⟨sc, List.mem_append_right _ hm⟩
  keep e he := g.keep e (h.keep e he)
  outs r ty sc hm := by
    rcases List.mem_append.1 hm with hm | hm
    · obtain ⟨o, h1, h2⟩ := h.outs r ty sc hm
      exact ⟨o, h1, g.keep _ h2⟩
    · exact g.outs r ty sc hm
  filled hf := g.filled (h.filled hf)

theorem act_simple {s : St} {a : Act} (ha : a.Simple)
    (ht : ((s.c.targets ++ tg [a]).map (·.1)).Nodup)
    (hb : ((s.c.bufs ++ bf [a]).map (·.1)).Nodup) :
    ∃ s', act s a = .ok s' ∧ Added s [a] s' := by
  cases a with
  | out to ty sc =>
    refine ⟨_, rfl, ⟨by simp [tg], by simp [bf], rfl, ?_, ?_, ?_, pushOut_ne⟩⟩
    · intro o r hm
      rcases (mem_flat_push _).1 hm with hm | hm
      · exact .inl hm
      · cases hm
        exact .inr ⟨sc, List.mem_singleton.2 rfl⟩
    · intro e he
      exact (mem_flat_push _).2 (.inl he)
    · intro r ty' sc' hm
      rw [List.mem_singleton] at hm
      cases hm
      exact ⟨_, rfl, (mem_flat_push _).2 (.inr rfl)⟩
  | target r c sc =>
    have hn : s.c.targets.lookup r = none := by
      apply lookup_none_of
      intro hm
      rw [tg, tg, List.map_append, List.nodup_append] at ht
      exact ht.2.2 r hm r (by simp) rfl
    refine ⟨{ s with c := { s.c with targets := s.c.targets ++ [(r, ⟨c, sc⟩)] } },
      by simp only [act, hn], ⟨by simp [tg], by simp [bf], rfl, ?_, ?_, ?_, ?_⟩⟩
    · exact fun o r hm => .inl hm
    · exact fun e he => he
    · intro r ty' sc' hm
      rw [List.mem_singleton] at hm
      cases hm
    · exact fun h => h
  | buffer r b =>
    have hn : s.c.bufs.lookup r = none := by
      apply lookup_none_of
      intro hm
      rw [bf, bf, List.map_append, List.nodup_append] at hb
      exact hb.2.2 r hm r (by simp) rfl
    refine ⟨{ s with c := { s.c with bufs := s.c.bufs ++ [(r, b)] } },
      by simp only [act, hn], ⟨by simp [tg], by simp [bf], rfl, ?_, ?_, ?_, ?_⟩⟩
    · exact fun o r hm => .inl hm
    · exact fun e he => he
    · intro r ty' sc' hm
      rw [List.mem_singleton] at hm
      cases hm
    · exact fun h => h
  | hint => exact ha.elim
  | child => exact ha.elim
  | newScope => exact ha.elim

theorem acts_simple {as : List Act} : ∀ {s : St}, (∀ a, a ∈ as → a.Simple) →
    ((s.c.targets ++ tg as).map (·.1)).Nodup → ((s.c.bufs ++ bf as).map (·.1)).Nodup →
    ∃ s', acts s as = .ok s' ∧ Added s as s' := by
  induction as with
  | nil => intro s _ _ _; exact ⟨s, rfl, .nil s⟩
  | cons a rest ih =>
    intro s ha ht hb
    rw [show a :: rest = [a] ++ rest from rfl, tg_append, ← List.append_assoc] at ht
    rw [show a :: rest = [a] ++ rest from rfl, bf_append, ← List.append_assoc] at hb
    obtain ⟨s1, h1, h2⟩ := act_simple (s := s) (ha a List.mem_cons_self)
      (by rw [List.map_append, List.nodup_append] at ht; exact ht.1)
      (by rw [List.map_append, List.nodup_append] at hb; exact hb.1)
    obtain ⟨s2, h3, h4⟩ := ih (s := s1) (fun x hx => ha x (List.mem_cons_of_mem _ hx))
      (by rw [h2.targets]; exact ht) (by rw [h2.bufs]; exact hb)
    refine ⟨s2, by simp only [acts, h1]; exact h3, ?_⟩
    exact h2.trans h4

/-! ### The operations -/

/-- The calls of an operation that declares its types. -/
def declActs (reg : Registry) (err : Ref) (e : Name × Schema) : List Act :=
  match e.2 with
  | .node inTy outTy next streams =>
    .target (.named [] none e.1) (.slot inTy 0 []) 0 :: .out (Ref.ofNext next) outTy 0 ::
      streams.map (fun s => .out (Ref.ofNext s.2) s.1 0)
  | .transform next onError =>
    [.out ((onError.map Ref.ofNext).getD err) reg.errTy 0,
      .target (.named [] none e.1) (.slot json 0 []) 0, .out (Ref.ofNext next) json 0]
  | .buffer _ =>
    [.target (.named [] none e.1) (.slot json 0 []) 0, .buffer (.named [] none e.1) (.value json)]
  | _ => []

theorem inNs_nil (r : Ref) : r.inNs [] = r := by cases r <;> rfl

/-- The operation as it is given to the builder. -/
def rootOp (e : Name × Schema) : UOp := ⟨e.1, [], e.2, 0⟩

theorem build_decl {ts : List (Name × Template)} {e : Name × Schema} (h : e.2.takes?.isSome)
    (c : Cons) : build reg ts err (rootOp e) c = .ok (declActs reg err e, .finished) := by
  obtain ⟨id, s⟩ := e
  cases s with
  | node i o n ss => simp [build, rootOp, declActs, intoRef, inNs_nil, Ref.ofNext]
  | transform n oe =>
    cases oe <;> simp [build, rootOp, declActs, intoRef, inNs_nil, Ref.ofNext]
  | buffer b =>
    cases b with
    | false => simp [Schema.takes?] at h
    | true => simp [build, rootOp, declActs, intoRef, inNs_nil, Ref.ofNext, bufferType]
  | _ => simp [Schema.takes?] at h

theorem declActs_simple {e : Name × Schema} : ∀ a, a ∈ declActs reg err e → a.Simple := by
  obtain ⟨id, s⟩ := e
  intro a ha
  cases s <;> simp [declActs] at ha
  · rcases ha with rfl | rfl | ⟨_, _, _, rfl⟩ <;> trivial
  · rcases ha with rfl | rfl <;> trivial
  · rcases ha with rfl | rfl | rfl <;> trivial

theorem tg_outs {α : Type} {l : List α} {f : α → Ref} {g : α → Ty} {sc : Nat} :
    tg (l.map fun a => .out (f a) (g a) sc) = [] := by
  induction l with
  | nil => rfl
  | cons a rest ih => simp [tg, ih]

theorem bf_outs {α : Type} {l : List α} {f : α → Ref} {g : α → Ty} {sc : Nat} :
    bf (l.map fun a => .out (f a) (g a) sc) = [] := by
  induction l with
  | nil => rfl
  | cons a rest ih => simp [bf, ih]

theorem tg_decl {e : Name × Schema} {t : Ty} (h : e.2.takes? = some t) :
    tg (declActs reg err e) = [(.named [] none e.1, ⟨.slot t 0 [], 0⟩)] := by
  obtain ⟨id, s⟩ := e
  cases s with
  | node i o n ss => cases h; simp [declActs, tg, tg_outs]
  | transform n oe => cases h; simp [declActs, tg]
  | buffer b =>
    cases b with
    | false => simp [Schema.takes?] at h
    | true => cases h; simp [declActs, tg]
  | _ => simp [Schema.takes?] at h

theorem bf_decl {e : Name × Schema} :
    bf (declActs reg err e) = [] ∨ ∃ b, bf (declActs reg err e) = [(.named [] none e.1, b)] := by
  obtain ⟨id, s⟩ := e
  cases s <;> simp [declActs, bf, bf_outs]

theorem bf_decl_keys {ops : List (Name × Schema)} (h : (ops.map (·.1)).Nodup) :
    ((bf (ops.flatMap (declActs reg err))).map (·.1)).Nodup ∧
    ∀ r, r ∈ (bf (ops.flatMap (declActs reg err))).map (·.1) →
      ∃ id, id ∈ ops.map (·.1) ∧ r = .named [] none id := by
  induction ops with
  | nil => simp [bf]
  | cons e rest ih =>
    simp only [List.map_cons, List.nodup_cons] at h
    obtain ⟨h1, h2⟩ := ih h.2
    simp only [List.flatMap_cons, bf_append, List.map_append]
    rcases bf_decl (reg := reg) (err := err) (e := e) with hb | ⟨b, hb⟩
    · rw [hb]
      refine ⟨by simpa using h1, fun r hr => ?_⟩
      obtain ⟨id, h3, h4⟩ := h2 r (by simpa using hr)
      exact ⟨id, List.mem_cons_of_mem _ h3, h4⟩
    · rw [hb]
      simp only [List.map_cons, List.map_nil, List.singleton_append, List.nodup_cons]
      refine ⟨⟨fun hm => ?_, h1⟩, fun r hr => ?_⟩
      · obtain ⟨id, h3, h4⟩ := h2 _ hm
        cases h4
        exact h.1 h3
      · rcases List.mem_cons.1 hr with rfl | hr
        · exact ⟨e.1, List.mem_cons_self, rfl⟩
        · obtain ⟨id, h3, h4⟩ := h2 r hr
          exact ⟨id, List.mem_cons_of_mem _ h3, h4⟩

theorem tg_decl_all {ops : List (Name × Schema)} (h : ∀ e, e ∈ ops → e.2.takes?.isSome) :
    tg (ops.flatMap (declActs reg err)) =
      ops.map fun e => (Ref.named [] none e.1, ⟨.slot (e.2.takes?.getD 0) 0 [], 0⟩) := by
  induction ops with
  | nil => rfl
  | cons e rest ih =>
    simp only [List.flatMap_cons, tg_append, List.map_cons]
    obtain ⟨t, ht⟩ := Option.isSome_iff_exists.1 (h e List.mem_cons_self)
    rw [tg_decl ht, ih fun x hx => h x (List.mem_cons_of_mem _ hx), ht]
    rfl

/-- The loop over the operations. -/
theorem buildAll_decl {ts : List (Name × Template)} {ops : List (Name × Schema)} :
    ∀ {s : St} {deferred : List UOp} {progress : Bool}, (∀ e, e ∈ ops → e.2.takes?.isSome) →
    s.children = [] →
    ((s.c.targets ++ tg (ops.flatMap (declActs reg err))).map (·.1)).Nodup →
    ((s.c.bufs ++ bf (ops.flatMap (declActs reg err))).map (·.1)).Nodup →
    ∃ s' progress', buildAll (build reg ts err) (ops.map rootOp) s deferred progress =
      .ok (s', deferred, progress') ∧ Added s (ops.flatMap (declActs reg err)) s' := by
  induction ops with
  | nil => intro s d p _ _ _ _; exact ⟨s, p, rfl, .nil s⟩
  | cons e rest ih =>
    intro s d p hd hc ht hb
    simp only [List.flatMap_cons, tg_append] at ht
    simp only [List.flatMap_cons, bf_append] at hb
    rw [← List.append_assoc] at ht hb
    obtain ⟨s1, h1, h2⟩ := acts_simple (s := s) (as := declActs reg err e) declActs_simple
      (by rw [List.map_append, List.nodup_append] at ht; exact ht.1)
      (by rw [List.map_append, List.nodup_append] at hb; exact hb.1)
    have hc1 : s1.children = [] := h2.children.trans hc
    have h2' : Added s (declActs reg err e)
        { s1 with
          children := []
          done := s1.done ++ [rootOp e] } :=
      ⟨h2.targets, h2.bufs, hc.symm, h2.from_, h2.keep, h2.outs, h2.filled⟩
    obtain ⟨s2, p2, h3, h4⟩ := ih (s := { s1 with
        children := []
        done := s1.done ++ [rootOp e] }) (deferred := d) (progress := true)
      (fun x hx => hd x (List.mem_cons_of_mem _ hx)) rfl
      (by rw [h2'.targets]; exact ht) (by rw [h2'.bufs]; exact hb)
    refine ⟨s2, p2, ?_, h2'.trans h4⟩
    simp only [List.map_cons, buildAll, build_decl (hd e List.mem_cons_self), h1, hc1,
      List.append_nil]
    exact h3

/-! ### The whole -/

/-- The calls that are made for the diagram. -/
def allActs (reg : Registry) (io : Io) (d : Diagram) : List Act :=
  builtins d.start io ++ d.ops.flatMap (declActs reg d.errRef)

theorem tg_streams {l : List (Name × Ty)} :
    tg (l.map fun s => .target (.streamOut [] s.1) (.slot s.2 0 []) 0) =
      l.map fun s => (Ref.streamOut [] s.1, ⟨.slot s.2 0 [], 0⟩) := by
  induction l with
  | nil => rfl
  | cons a rest ih => simp [tg, ih]

theorem bf_streams {l : List (Name × Ty)} :
    bf (l.map fun s => .target (.streamOut [] s.1) (.slot s.2 0 []) 0) = [] := by
  induction l with
  | nil => rfl
  | cons a rest ih => simp [bf, ih]

/-- The targets of the diagram. -/
def allTargets (io : Io) (d : Diagram) : List (Ref × Target) :=
  (Ref.terminate [], ⟨.slot io.response 0 [], 0⟩) ::
    (io.streams.map (fun s => (Ref.streamOut [] s.1, (⟨.slot s.2 0 [], 0⟩ : Target))) ++
    ((Ref.dispose, ⟨.dispose, 0⟩) :: (Ref.cancel [], ⟨.cancel 0 [], 0⟩) ::
      d.ops.map fun e => (Ref.named [] none e.1, ⟨.slot (e.2.takes?.getD 0) 0 [], 0⟩)))

theorem tg_all {io : Io} {d : Diagram} (h : d.Declared) :
    tg (allActs reg io d) = allTargets io d := by
  unfold allActs builtins allTargets
  rw [tg_append, tg_decl_all (fun e he => h e.1 e.2 he)]
  simp [tg, tg_append, tg_streams]

theorem bf_all {io : Io} {d : Diagram} :
    bf (allActs reg io d) = bf (d.ops.flatMap (declActs reg d.errRef)) := by
  unfold allActs builtins
  rw [bf_append]
  simp [bf, bf_append, bf_streams]

theorem nodup_map_inj {α β : Type} {l : List α} {f : α → β}
    (hf : ∀ a b, f a = f b → a = b) (h : l.Nodup) : (l.map f).Nodup := by
  induction l with
  | nil => simp
  | cons a rest ih =>
    rw [List.nodup_cons] at h
    rw [List.map_cons, List.nodup_cons]
    refine ⟨fun hm => ?_, ih h.2⟩
    obtain ⟨b, hb, he⟩ := List.mem_map.1 hm
    rw [hf _ _ he] at hb
    exact h.1 hb

theorem allTargets_keys {io : Io} {d : Diagram} (hops : (d.ops.map (·.1)).Nodup)
    (hio : (io.streams.map (·.1)).Nodup) : ((allTargets io d).map (·.1)).Nodup := by
  have h1 : ((d.ops.map (·.1)).map fun n => Ref.named [] none n).Nodup :=
    nodup_map_inj (by intro a b h; cases h; rfl) hops
  have h2 : ((io.streams.map (·.1)).map fun n => Ref.streamOut [] n).Nodup :=
    nodup_map_inj (by intro a b h; cases h; rfl) hio
  rw [List.map_map] at h1 h2
  simp only [allTargets, List.map_cons, List.map_append, List.map_map, List.nodup_cons,
    List.nodup_append, List.mem_append, List.mem_cons, List.mem_map]
  refine ⟨by simp, h2, ⟨by simp, by simp, h1⟩, ?_⟩
  rintro a ⟨x, _, rfl⟩ b hb
  rcases hb with rfl | rfl | ⟨y, _, rfl⟩ <;> simp

theorem nodup_bufs {io : Io} {d : Diagram} (hops : (d.ops.map (·.1)).Nodup) :
    ((bf (allActs reg io d)).map (·.1)).Nodup := by
  rw [bf_all]
  exact (bf_decl_keys hops).1

theorem builtins_simple {n : Next} {io : Io} : ∀ a, a ∈ builtins n io → a.Simple := by
  intro a ha
  simp only [builtins, List.cons_append, List.mem_cons, List.mem_append, List.mem_map,
    List.not_mem_nil, or_false] at ha
  rcases ha with rfl | rfl | ⟨_, _, rfl⟩ | rfl | rfl <;> trivial

theorem directUses_decl {ops : List (Name × Schema)} (h : ∀ e, e ∈ ops → e.2.takes?.isSome) :
    directUses ops = [] := by
  induction ops with
  | nil => rfl
  | cons e rest ih =>
    obtain ⟨id, s⟩ := e
    have h1 := ih fun x hx => h x (List.mem_cons_of_mem _ hx)
    have h2 := h _ List.mem_cons_self
    cases s <;> simp_all [directUses, Schema.takes?]

theorem mem_flat_ne {m : List (Ref × List Out)} {e : Out × Ref} (h : e ∈ flat m) :
    ∃ x, x ∈ m ∧ x.2.isEmpty = false := by
  unfold flat at h
  obtain ⟨x, hx, he⟩ := List.mem_flatMap.1 h
  refine ⟨x, hx, ?_⟩
  cases hx2 : x.2 with
  | nil => rw [hx2] at he; cases he
  | cons => rfl

theorem hasOutputs_of {s : St} {e : Out × Ref} (h : e ∈ flat s.c.outs) : hasOutputs s = true := by
  obtain ⟨x, h1, h2⟩ := mem_flat_ne h
  unfold hasOutputs
  rw [List.any_eq_true]
  exact ⟨x, h1, by simp [h2]⟩

/-- The state in which all operations of the diagram have been built. -/
theorem create_decl {io : Io} {ord : Order} {max : Nat} {d : Diagram} (h : d.Declared)
    (hops : (d.ops.map (·.1)).Nodup) (hio : (io.streams.map (·.1)).Nodup) :
    ∃ s1 progress, Added St.empty (allActs reg io d) s1 ∧
      (∀ s, create reg io ord (max + 1) d = .ok s →
        ∃ s2 progress' left', inner reg d.errRef ord false (max + 1) s1 progress =
          .ok (s2, progress', left')) ∧
      (∀ s2 left, inner reg d.errRef ord false (max + 1) s1 progress = .ok (s2, true, left + 1) →
        s2.c.outs = [] → AllPlain s2.c.targets → create reg io ord (max + 1) d = .ok s2) := by
  have hd : ∀ e, e ∈ d.ops → e.2.takes?.isSome := fun e he => h e.1 e.2 he
  have hT : ((tg (allActs reg io d)).map (·.1)).Nodup := by
    rw [tg_all h]; exact allTargets_keys hops hio
  have hB := nodup_bufs (reg := reg) (io := io) (d := d) hops
  have hT' := hT
  have hB' := hB
  unfold allActs at hT' hB'
  rw [tg_append, List.map_append, List.nodup_append] at hT'
  rw [bf_append, List.map_append, List.nodup_append] at hB'
  obtain ⟨s0, h1, h2⟩ := acts_simple (s := St.empty) (builtins_simple (n := d.start) (io := io))
    (by simpa [St.empty] using hT'.1) (by simpa [St.empty] using hB'.1)
  obtain ⟨s1, progress, h3, h4⟩ := buildAll_decl (ts := d.templates) (s := s0) (deferred := [])
    (progress := false) (reg := reg) (err := d.errRef) hd (h2.children.trans rfl)
    (by rw [h2.targets]; simpa [St.empty, allActs, tg_append] using hT)
    (by rw [h2.bufs]; simpa [St.empty, allActs, bf_append] using hB)
  have hu : validateUsage d.templates (directUses d.ops) = .ok () := by
    rw [directUses_decl hd]; rfl
  have hmap : (d.ops.map fun e => (⟨e.1, [], e.2, 0⟩ : UOp)) = d.ops.map rootOp := rfl
  have hout : hasOutputs s0 = true := by
    obtain ⟨o, _, ho⟩ := h2.outs (Ref.ofNext d.start) io.request 0
      (by simp [builtins])
    exact hasOutputs_of ho
  refine ⟨s1, progress, h2.trans h4, ?_, ?_⟩
  · intro s hs
    unfold create at hs
    simp only [hu, h1, hmap, run, outer, hout, Bool.not_true, Bool.and_false, Bool.false_eq_true,
      if_false, h3, List.isEmpty_nil] at hs
    split at hs
    · cases hs
    · rename_i s' hs'
      split at hs'
      · cases hs'
      · rename_i s2 p2 l2 hi
        exact ⟨s2, p2, l2, hi⟩
  · intro s2 left hi ho hp
    have hno : hasOutputs s2 = false := by simp [hasOutputs, ho]
    have hfin : finished s2.c.targets = true := by
      unfold finished
      rw [List.all_eq_true]
      intro e he
      have := hp e he
      cases hc : e.2.conn <;> simp_all [Conn.Plain]
    unfold create
    simp only [hu, h1, hmap, run, outer, hout, Bool.not_true, Bool.and_false, Bool.false_eq_true,
      if_false, h3, List.isEmpty_nil, hi, if_true, hno, Bool.not_false, Bool.and_self, hfin]

end Verif.Diagram
